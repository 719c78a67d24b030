import Verif.Props.OpTables
/-
Property theorem C56: np.floor_divide of floats.
-/
namespace Pnumpy.Props
open Pnumpy.Spec Pnumpy.Elem Pnumpy.Dispatch Pnumpy.Ieee Pnumpy.FloatOps Pnumpy.OpTables

/-- The machine's division and `floor` on patterns of format `(E, M, k)` are those of IEEE-754: a quotient not larger than some float is rounded
to a nearest float, `floor` is exact. -/
structure IeeeDivide (F : FloatUnit) (E M k : Nat) : Prop where
  div : ∀ (x y s : BitVec k) (vx vy vs : Int), floatValue E M x = .fin vx → floatValue E M y = .fin vy → vy ≠ 0 →
    floatValue E M s = .fin vs → (vx * floatUnit E M).natAbs ≤ (vs * vy).natAbs →
    ∃ r, floatValue E M (F.div k x y) = .fin r ∧ NearestQuotient E M k vx vy r
  floor : ∀ (x : BitVec k) (v : Int), floatValue E M x = .fin v →
    floatValue E M (F.floor k x) = .fin (floatUnit E M * (v / floatUnit E M))

theorem unit_pos (E M : Nat) : 0 < floatUnit E M := by unfold floatUnit; positivity

/-- The pattern with a given sign and magnitude. -/
theorem exists_pattern {E M k : Nat} (h : Fmt E M k) (b : Bool) (a : Nat) (ha : a < 2 ^ (E + M)) :
    ∃ s : BitVec k, mag E M s = a ∧ neg E M s = b := by
  obtain ⟨_, hk⟩ := signMask_toNat h
  have hlt : 2 ^ (E + M) * b.toNat + a < 2 ^ k := by
    rw [hk, Nat.pow_succ]; cases b <;> simp <;> omega
  refine ⟨BitVec.ofNat k (2 ^ (E + M) * b.toNat + a), ?_, ?_⟩
  · unfold mag
    rw [BitVec.toNat_ofNat, Nat.mod_eq_of_lt hlt, Nat.mul_add_mod, Nat.mod_eq_of_lt ha]
  · unfold neg
    rw [BitVec.toNat_ofNat, Nat.mod_eq_of_lt hlt, Nat.testBit_eq_decide_div_mod_eq, Nat.mul_add_div (Nat.two_pow_pos _),
      Nat.div_eq_of_lt ha]
    cases b <;> rfl

theorem value_of_mag {E M k : Nat} (x : BitVec k) (hm : mag E M x < infMag E M) :
    floatValue E M x = .fin (if neg E M x then -(smag M (mag E M x) : Int) else (smag M (mag E M x) : Int)) := by
  rw [floatValue_eq, if_neg (by omega), if_neg (by omega)]

/-- Every integer up to `2^M` is a float. -/
theorem integer_is_float {E M k : Nat} (h : Fmt E M k) (q : Int) (hq : q.natAbs ≤ 2 ^ M) :
    ∃ s : BitVec k, floatValue E M s = .fin (floatUnit E M * q) := by
  have key : ∀ a : Nat, a ≤ 2 ^ M → ∃ m, m < infMag E M ∧ smag M m = 2 ^ (2 ^ (E - 1) - 2 + M) * a := by
    intro a ha
    by_cases h0 : a = 0
    · exact ⟨0, infMag_pos M h.pos, by rw [smag_zero, h0, Nat.mul_zero]⟩
    · have hj := Nat.log2_self_le h0
      have hj' := Nat.lt_log2_self (n := a)
      generalize a.log2 = j at hj hj'
      have hjM : j ≤ M := by
        by_contra hc
        have : 2 ^ M < 2 ^ j := Nat.pow_lt_pow_right (by decide) (by omega)
        omega
      rw [Nat.pow_succ] at hj'
      have e1 : 2 ^ j * 2 ^ (M - j) = 2 ^ M := by rw [← Nat.pow_add]; congr 1; omega
      have hf : (a - 2 ^ j) * 2 ^ (M - j) < 2 ^ M := by
        rw [← e1]; exact Nat.mul_lt_mul_of_pos_right (by omega) (Nat.two_pow_pos _)
      have hE : 2 ≤ 2 ^ (E - 1) ∧ 2 ^ (E - 1) - 1 + M < 2 ^ E - 1 := by cases h <;> decide
      refine ⟨(2 ^ (E - 1) - 1 + j) * 2 ^ M + (a - 2 ^ j) * 2 ^ (M - j), ?_, ?_⟩
      · unfold infMag
        calc _ < (2 ^ (E - 1) - 1 + j) * 2 ^ M + 2 ^ M := by omega
          _ = (2 ^ (E - 1) - 1 + j + 1) * 2 ^ M := by ring
          _ ≤ (2 ^ E - 1) * 2 ^ M := Nat.mul_le_mul_right _ (by omega)
      · unfold smag
        rw [Nat.mul_comm _ (2 ^ M), Nat.mul_add_div (Nat.two_pow_pos _), Nat.mul_add_mod, Nat.div_eq_of_lt hf,
          Nat.mod_eq_of_lt hf, Nat.add_zero, if_neg (by omega)]
        have e2 : 2 ^ M + (a - 2 ^ j) * 2 ^ (M - j) = a * 2 ^ (M - j) := by
          rw [← e1, ← Nat.add_mul]; congr 1; omega
        rw [e2, Nat.mul_assoc, ← Nat.pow_add, Nat.mul_comm]
        congr 2; omega
  obtain ⟨m, hm, he⟩ := key q.natAbs hq
  obtain ⟨s, h1, h2⟩ := exists_pattern h (decide (q < 0)) m (by
    have : infMag E M < 2 ^ (E + M) := by cases h <;> decide
    omega)
  refine ⟨s, ?_⟩
  rw [value_of_mag s (by omega), h1, h2, he]
  have hu : ((2 ^ (2 ^ (E - 1) - 2 + M) * q.natAbs : Nat) : Int) = floatUnit E M * q.natAbs := by
    unfold floatUnit; push_cast; rfl
  rw [hu]
  by_cases hn : q < 0
  · simp only [hn, decide_true, if_true]
    rw [← Int.mul_neg]; congr 2; omega
  · simp only [hn, decide_false, Bool.false_eq_true, if_false]
    congr 2; omega

theorem nearest_between {E M k : Nat} (h : Fmt E M k) {vx vy q r : Int} (hq : FloorQuotient vx vy q)
    (h1 : q.natAbs ≤ 2 ^ M) (h2 : (q + 1).natAbs ≤ 2 ^ M) (hr : NearestQuotient E M k vx vy r) :
    floatUnit E M * q ≤ r ∧ r ≤ floatUnit E M * (q + 1) := by
  obtain ⟨s1, e1⟩ := integer_is_float h q h1
  obtain ⟨s2, e2⟩ := integer_is_float h (q + 1) h2
  have d1 := hr s1 _ e1
  have d2 := hr s2 _ e2
  have hu := unit_pos E M
  generalize floatUnit E M = S at *
  rcases hq with ⟨hy, ha, hb⟩ | ⟨hy, ha, hb⟩
  · have a1 : S * q * vy ≤ vx * S := by
      have := Int.mul_le_mul_of_nonneg_left ha (Int.le_of_lt hu); rw [Int.mul_assoc, Int.mul_comm vx]; exact this
    have a2 : vx * S < S * (q + 1) * vy := by
      have := Int.mul_lt_mul_of_pos_left hb hu; rw [Int.mul_assoc, Int.mul_comm vx]; exact this
    constructor
    · by_contra hc
      have : r * vy < S * q * vy := Int.mul_lt_mul_of_pos_right (by omega) hy
      omega
    · by_contra hc
      have : S * (q + 1) * vy < r * vy := Int.mul_lt_mul_of_pos_right (by omega) hy
      omega
  · have a1 : vx * S ≤ S * q * vy := by
      have := Int.mul_le_mul_of_nonneg_left ha (Int.le_of_lt hu); rw [Int.mul_assoc, Int.mul_comm vx]; exact this
    have a2 : S * (q + 1) * vy < vx * S := by
      have := Int.mul_lt_mul_of_pos_left hb hu; rw [Int.mul_assoc, Int.mul_comm vx]; exact this
    constructor
    · by_contra hc
      have : S * q * vy < r * vy := Int.mul_lt_mul_of_neg_right (by omega) hy
      omega
    · by_contra hc
      have : r * vy < S * (q + 1) * vy := Int.mul_lt_mul_of_neg_right (by omega) hy
      omega

theorem floorDivOp_eq {E M k : Nat} (hE : 0 < E) (F : FloatUnit) (x y : BitVec k) (v : Int) (hy : floatValue E M y = .fin v) :
    floorDivOp F E M k x y = F.floor k (F.div k x y) := by
  unfold floorDivOp
  rw [if_pos ((feq_iff E M hE y y).mpr (by rw [hy]; rfl))]

/-- **C56** for quotients whose floor and ceiling are at most `2^M` in magnitude (2^52 for doubles): floor_divide gives the floor `q` of the exact quotient or `q + 1`,
and it gives `q` exactly when the division does not round up to `q + 1`, in particular when some float is strictly nearer to the exact quotient than `q + 1`.
Missing: it is not always `q` (see `C56_floor_divide_violated`). -/
theorem C56_floor_divide_partial {E M k : Nat} (h : Fmt E M k) (F : FloatUnit) (hF : IeeeDivide F E M k) (x y : BitVec k)
    (vx vy q : Int) (hx : floatValue E M x = .fin vx) (hy : floatValue E M y = .fin vy) (hq : FloorQuotient vx vy q)
    (h1 : q.natAbs ≤ 2 ^ M) (h2 : (q + 1).natAbs ≤ 2 ^ M) :
    (floatValue E M (floorDivOp F E M k x y) = .fin (floatUnit E M * q) ∨
      floatValue E M (floorDivOp F E M k x y) = .fin (floatUnit E M * (q + 1))) ∧
    (floatValue E M (floorDivOp F E M k x y) = .fin (floatUnit E M * (q + 1)) ↔
      floatValue E M (F.div k x y) = .fin (floatUnit E M * (q + 1))) ∧
    ((∃ (s : BitVec k) (v : Int), floatValue E M s = .fin v ∧
        (vx * floatUnit E M - v * vy).natAbs < (vx * floatUnit E M - floatUnit E M * (q + 1) * vy).natAbs) →
      floatValue E M (floorDivOp F E M k x y) = .fin (floatUnit E M * q)) := by
  have hy0 : vy ≠ 0 := by rcases hq with h | h <;> omega
  have hu := unit_pos E M
  have hdiv : ∃ r, floatValue E M (F.div k x y) = .fin r ∧ NearestQuotient E M k vx vy r := by
    by_cases hs : 0 ≤ q
    · obtain ⟨s, hs'⟩ := integer_is_float h (q + 1) h2
      refine hF.div x y s vx vy _ hx hy hy0 hs' ?_
      rw [Int.natAbs_mul, Int.mul_assoc, Int.natAbs_mul, Nat.mul_comm]
      apply Nat.mul_le_mul_left
      rcases hq with ⟨hp, ha, hb⟩ | ⟨hp, ha, hb⟩
      · have := Int.mul_nonneg hs (Int.le_of_lt hp); omega
      · have : q * vy ≤ 0 := Int.mul_nonpos_of_nonneg_of_nonpos hs (Int.le_of_lt hp); omega
    · obtain ⟨s, hs'⟩ := integer_is_float h q h1
      refine hF.div x y s vx vy _ hx hy hy0 hs' ?_
      rw [Int.natAbs_mul, Int.mul_assoc, Int.natAbs_mul, Nat.mul_comm]
      apply Nat.mul_le_mul_left
      rcases hq with ⟨hp, ha, hb⟩ | ⟨hp, ha, hb⟩
      · have : (q + 1) * vy ≤ 0 := Int.mul_nonpos_of_nonpos_of_nonneg (by omega) (Int.le_of_lt hp); omega
      · have : 0 ≤ (q + 1) * vy := Int.mul_nonneg_of_nonpos_of_nonpos (by omega) (Int.le_of_lt hp); omega
  obtain ⟨r, hr, hn⟩ := hdiv
  obtain ⟨b1, b2⟩ := nearest_between h hq h1 h2 hn
  rw [floorDivOp_eq h.pos F x y vy hy, hF.floor _ r hr, hr]
  have fl : ∀ c : Int, floatUnit E M * c ≤ r → r < floatUnit E M * (c + 1) → r / floatUnit E M = c := by
    intro c a b
    apply Int.le_antisymm
    · exact Int.lt_add_one_iff.mp (Int.ediv_lt_of_lt_mul hu (by rw [Int.mul_comm]; exact b))
    · exact Int.le_ediv_of_mul_le hu (by rw [Int.mul_comm]; exact a)
  have hlt : floatUnit E M * q < floatUnit E M * (q + 1) := Int.mul_lt_mul_of_pos_left (by omega) hu
  by_cases he : r = floatUnit E M * (q + 1)
  · have e := fl (q + 1) (by omega) (by rw [he]; exact Int.mul_lt_mul_of_pos_left (by omega) hu)
    rw [e]
    refine ⟨Or.inr rfl, by simp [he], ?_⟩
    rintro ⟨s, v, hv, hd⟩
    have := hn s v hv
    rw [he] at this
    omega
  · have e := fl q b1 (by omega)
    rw [e]
    refine ⟨Or.inl rfl, ?_, fun _ => rfl⟩
    constructor
    · intro hc
      simp only [Value.fin.injEq] at hc; omega
    · intro hc
      simp only [Value.fin.injEq] at hc; exact absurd hc he

/-- Large floats are multiples of a power of two. -/
theorem smag_dvd (M j m : Nat) (h : 2 ^ (M + j) ≤ smag M m) : 2 ^ j ∣ smag M m := by
  have hP : 0 < 2 ^ M := Nat.two_pow_pos M
  have hlt := Nat.mod_lt m hP
  unfold smag at h ⊢
  split at h
  · rename_i h0
    rw [if_pos h0]
    have h1 : 2 ^ M ≤ 2 ^ (M + j) := Nat.pow_le_pow_right (by decide) (by omega)
    omega
  · rename_i h0
    rw [if_neg h0]
    have h1 : (2 ^ M + m % 2 ^ M) * 2 ^ (m / 2 ^ M - 1) < (2 ^ M + 2 ^ M) * 2 ^ (m / 2 ^ M - 1) :=
      Nat.mul_lt_mul_of_pos_right (by omega) (Nat.two_pow_pos _)
    have h2 : (2 ^ M + 2 ^ M) * 2 ^ (m / 2 ^ M - 1) = 2 ^ (M + m / 2 ^ M) := by
      generalize m / 2 ^ M = e at h0 ⊢
      rw [← Nat.two_mul, ← Nat.pow_succ', ← Nat.pow_add]; congr 1; omega
    have h3 : 2 ^ (M + j) < 2 ^ (M + m / 2 ^ M) := by omega
    have h4 := (Nat.pow_lt_pow_iff_right (a := 2) (by decide)).mp h3
    exact Dvd.dvd.mul_left (Nat.pow_dvd_pow 2 (by omega)) _

theorem value_dvd {E M k : Nat} (j : Nat) (x : BitVec k) (v : Int) (hv : floatValue E M x = .fin v) (h : 2 ^ (M + j) ≤ v.natAbs) :
    ((2 ^ j : Nat) : Int) ∣ v := by
  by_cases hm : mag E M x < infMag E M
  · rw [value_of_mag x hm] at hv
    have := Value.fin.inj hv
    split at this
    · subst this
      rw [Int.natAbs_neg, Int.natAbs_natCast] at h
      exact Int.dvd_neg.mpr (Int.natCast_dvd_natCast.mpr (smag_dvd M j _ h))
    · subst this
      rw [Int.natAbs_natCast] at h
      exact Int.natCast_dvd_natCast.mpr (smag_dvd M j _ h)
  · rw [floatValue_eq] at hv
    split at hv
    · simp at hv
    · split at hv
      · split at hv <;> simp at hv
      · omega

/-- `floor` of a float is a float. -/
theorem floor_is_float {E M k : Nat} (h : Fmt E M k) (x : BitVec k) (v : Int) (hv : floatValue E M x = .fin v) :
    ∃ s : BitVec k, floatValue E M s = .fin (floatUnit E M * (v / floatUnit E M)) := by
  have hu := unit_pos E M
  by_cases hb : 2 ^ (M + (2 ^ (E - 1) - 2 + M)) ≤ v.natAbs
  · refine ⟨x, ?_⟩
    have hd := value_dvd _ x v hv hb
    have e : ((2 ^ (2 ^ (E - 1) - 2 + M) : Nat) : Int) = floatUnit E M := by unfold floatUnit; push_cast; rfl
    rw [e] at hd
    rw [hv, Int.mul_ediv_cancel' hd]
  · apply integer_is_float h
    have e : ((2 ^ (M + (2 ^ (E - 1) - 2 + M)) : Nat) : Int) = floatUnit E M * ((2 ^ M : Nat) : Int) := by
      unfold floatUnit; push_cast; rw [← pow_add]; congr 1; omega
    have b1 : v < floatUnit E M * ((2 ^ M : Nat) : Int) := by omega
    have b2 : floatUnit E M * -((2 ^ M : Nat) : Int) ≤ v := by rw [Int.mul_neg]; omega
    have c1 : v / floatUnit E M < ((2 ^ M : Nat) : Int) := Int.ediv_lt_of_lt_mul hu (by rw [Int.mul_comm]; exact b1)
    have c2 : -((2 ^ M : Nat) : Int) ≤ v / floatUnit E M := Int.le_ediv_of_mul_le hu (by rw [Int.mul_comm]; exact b2)
    omega

theorem nearest_exists {E M k : Nat} (h : Fmt E M k) (vx vy : Int) :
    ∃ (s : BitVec k) (r : Int), floatValue E M s = .fin r ∧ NearestQuotient E M k vx vy r := by
  classical
  have hex : ∃ d, ∃ (s : BitVec k) (r : Int), floatValue E M s = .fin r ∧ (vx * floatUnit E M - r * vy).natAbs = d := by
    obtain ⟨s, hs⟩ := integer_is_float (k := k) h 0 (by simp)
    exact ⟨_, s, _, hs, rfl⟩
  obtain ⟨s, r, hr, hd⟩ := Nat.find_spec hex
  refine ⟨s, r, hr, fun s' v hv => ?_⟩
  rw [hd]
  exact Nat.find_min' hex ⟨s', v, hv, rfl⟩

/-- A machine with IEEE-754 division and floor exists, for each format. -/
theorem ieeeDivide_exists {E M k : Nat} (h : Fmt E M k) : ∃ F : FloatUnit, IeeeDivide F E M k := by
  classical
  refine ⟨{ add := fun _ x _ => x, sub := fun _ x _ => x, mul := fun _ x _ => x, ceil := fun _ x => x, trunc := fun _ x => x
            sqrt := fun _ x => x, round := fun _ x => x
            div := fun k' x y => Classical.epsilon (h := ⟨x⟩) (fun s : BitVec k' =>
              ∀ vx vy, floatValue E M x = .fin vx → floatValue E M y = .fin vy →
                ∃ r, floatValue E M s = .fin r ∧ NearestQuotient E M k' vx vy r)
            floor := fun k' x => Classical.epsilon (h := ⟨x⟩) (fun s : BitVec k' =>
              ∀ v, floatValue E M x = .fin v → floatValue E M s = .fin (floatUnit E M * (v / floatUnit E M))) }, ?_, ?_⟩
  · intro x y s vx vy vs hx hy _ _ _
    obtain ⟨s, r, hr, hn⟩ := nearest_exists (k := k) h vx vy
    have := Classical.epsilon_spec_aux ⟨x⟩ (fun s : BitVec k =>
              ∀ vx vy, floatValue E M x = .fin vx → floatValue E M y = .fin vy →
                ∃ r, floatValue E M s = .fin r ∧ NearestQuotient E M k vx vy r) ⟨s, fun a b ha hb => by
        rw [hx] at ha; rw [hy] at hb
        rw [← Value.fin.inj ha, ← Value.fin.inj hb]
        exact ⟨r, hr, hn⟩⟩
    exact this vx vy hx hy
  · intro x v hv
    obtain ⟨s, hs⟩ := floor_is_float h x v hv
    exact Classical.epsilon_spec_aux ⟨x⟩ (fun s : BitVec k =>
              ∀ v, floatValue E M x = .fin v → floatValue E M s = .fin (floatUnit E M * (v / floatUnit E M)))
      ⟨s, fun a ha => by rw [hv] at ha; rw [← Value.fin.inj ha]; exact hs⟩ v hv

theorem value_one : floatValue 11 52 (0x3ff0000000000000#64) = .fin (2 ^ 56 * 2 ^ 1018) := by
  rw [value_of_mag _ (by decide +kernel)]; decide +kernel

theorem value_tenth : floatValue 11 52 (0x3fb999999999999a#64) = .fin (7205759403792794 * 2 ^ 1018) := by
  rw [value_of_mag _ (by decide +kernel)]; decide +kernel

/-- **C56, violated**: on doubles, `floor_divide(1.0, 0.1)` is 10.0, although the exact quotient of the two doubles is below 10
and numpy (which computes the remainder first) answers 9.0. -/
theorem C56_floor_divide_violated (F : FloatUnit) (hF : IeeeDivide F 11 52 64) :
    ∃ vx vy, floatValue 11 52 (0x3ff0000000000000#64) = .fin vx ∧ floatValue 11 52 (0x3fb999999999999a#64) = .fin vy ∧
      FloorQuotient vx vy 9 ∧
      floatValue 11 52 (floorDivOp F 11 52 64 0x3ff0000000000000#64 0x3fb999999999999a#64) = .fin (floatUnit 11 52 * 10) := by
  have hc : (0 : Int) < 2 ^ 1018 := by positivity
  have hunit : floatUnit 11 52 = 2 ^ 56 * 2 ^ 1018 := by decide +kernel
  have hq : FloorQuotient (2 ^ 56 * 2 ^ 1018) (7205759403792794 * 2 ^ 1018) 9 := by
    left
    generalize (2 : Int) ^ 1018 = c at *
    refine ⟨by omega, by omega, by omega⟩
  refine ⟨_, _, value_one, value_tenth, hq, ?_⟩
  have hp := C56_floor_divide_partial Fmt.f64 F hF _ _ _ _ 9 value_one value_tenth hq (by decide) (by decide)
  rw [show (10 : Int) = 9 + 1 by rfl, hp.2.1]
  obtain ⟨ten, hten⟩ := integer_is_float Fmt.f64 10 (by decide)
  obtain ⟨r, hr, hn⟩ := hF.div _ _ ten _ _ _ value_one value_tenth
    (by generalize (2 : Int) ^ 1018 = c at *; omega) hten (by
      rw [hunit]
      generalize (2 : Int) ^ 1018 = c at *
      rw [show (2 ^ 56 * c * 10 * (7205759403792794 * c) : Int) = 2 ^ 56 * c * (72057594037927940 * c) by ring,
        Int.natAbs_mul, Int.natAbs_mul (2 ^ 56 * c) (72057594037927940 * c)]
      rw [Nat.mul_comm]
      exact Nat.mul_le_mul_left _ (by omega))
  rw [hr]
  congr 1
  have hd := hn ten _ hten
  have hdvd := value_dvd 1025 _ r hr
  rw [hunit] at hd ⊢
  have hpow : ((2 ^ (52 + 1025) : Nat) : Int) = 2 ^ 59 * 2 ^ 1018 := by decide +kernel
  have hpow2 : ((2 ^ 1025 : Nat) : Int) = 128 * 2 ^ 1018 := by decide +kernel
  rw [hpow2] at hdvd
  generalize 2 ^ (52 + 1025) = B at *
  generalize (2 : Int) ^ 1018 = c at *
  rw [show (2 ^ 56 * c * (2 ^ 56 * c) - r * (7205759403792794 * c) : Int) = c * (2 ^ 112 * c - 7205759403792794 * r) by ring,
    show (2 ^ 56 * c * (2 ^ 56 * c) - 2 ^ 56 * c * 10 * (7205759403792794 * c) : Int) = c * (- (2 ^ 58 * c)) by ring,
    Int.natAbs_mul, Int.natAbs_mul] at hd
  have hd' := Nat.le_of_mul_le_mul_left hd (by omega)
  obtain ⟨t, rfl⟩ := hdvd (by omega)
  rw [show (2 ^ 112 * c - 7205759403792794 * (128 * c * t) : Int) = c * (2 ^ 112 - 7205759403792794 * 128 * t) by ring,
    show (- (2 ^ 58 * c) : Int) = c * (-2 ^ 58) by ring, Int.natAbs_mul, Int.natAbs_mul] at hd'
  have hd'' := Nat.le_of_mul_le_mul_left hd' (by omega)
  have : t = 5629499534213120 := by omega
  rw [this]; ring

/-- **C56**, the whole call `np.floor_divide(a, b)` on doubles: whatever the length, strides, thread limits, schedule and interleaving, an output element whose
two inputs are finite with the floor `q` of the exact quotient and `q + 1` within `2^52` holds `q` or `q + 1`, `q` if the division does not round up to `q + 1`;
every other cell keeps its value.  Missing: it is not always `q` (see `C56_floor_divide_violated`). -/
theorem C56_floor_divide_call_partial (F : FloatUnit) (hF : IeeeDivide F 11 52 64) (e : TwoFunc) (he : BinaryKernel F .floorDivide .f64 e)
    (mt : Int) (w : World) (hw : w.atop = true) (A : Args) (n : Nat) (m : Int → BitVec 64)
    (hguard : ¬ (A.p1 < A.po ∧ A.po < A.p1 + 64) ∧ ¬ (A.p2 < A.po ∧ A.po < A.p2 + 64))
    (hs : SafeOverlap n A.p1 A.s1 A.p2 A.s2 A.po A.so)
    (evs : List (Nat × Acc)) (hex : Exec .binary ⟨some e.kernel, mt⟩ A n w evs) :
    ∃ (hb : e.bits = 64) (m' : Int → BitVec 64), runMem (e.at hb) m evs = some m' ∧
      (∀ (i : Nat) (vx vy q : Int), i < n → floatValue 11 52 (m (A.p1 + A.s1 * i)) = .fin vx →
        floatValue 11 52 (m (A.p2 + A.s2 * i)) = .fin vy → FloorQuotient vx vy q → q.natAbs ≤ 2 ^ 52 → (q + 1).natAbs ≤ 2 ^ 52 →
        (floatValue 11 52 (m' (A.po + A.so * i)) = .fin (floatUnit 11 52 * q) ∨
          floatValue 11 52 (m' (A.po + A.so * i)) = .fin (floatUnit 11 52 * (q + 1))) ∧
        (floatValue 11 52 (m' (A.po + A.so * i)) = .fin (floatUnit 11 52 * (q + 1)) ↔
          floatValue 11 52 (F.div 64 (m (A.p1 + A.s1 * i)) (m (A.p2 + A.s2 * i))) = .fin (floatUnit 11 52 * (q + 1)))) ∧
      (∀ i : Nat, i < n → floatValue 11 52 (m (A.p2 + A.s2 * i)) = .nan → floatValue 11 52 (m' (A.po + A.so * i)) = .nan) ∧
      (∀ a, (∀ i : Nat, i < n → a ≠ A.po + A.so * i) → m' a = m a) := by
  obtain ⟨op, hm, hf⟩ := he
  rw [opOf hm] at hf
  obtain ⟨hb, _, _, h8⟩ := table_shape hf
  refine ⟨hb, ?_⟩
  obtain ⟨m', h1, h2⟩ := C51_enabled_is_kernel .binary ⟨some e.kernel, mt⟩ w hw A n m (e.at hb)
    (fits_table _ mt A hf (by
      simp only [mathOpFast, Option.some.injEq] at hf; subst hf
      rintro ⟨_, h⟩; simp [slowOf] at h)) _ rfl (fun _ => hguard) (by simp) (Or.inl ⟨h8, hs⟩) evs hex
  simp only [mathOpFast, Option.some.injEq] at hf
  subst hf
  refine ⟨m', h1, fun i vx vy q hi hx hy hq b1 b2 => ?_, fun i hi hy => ?_, h2.2⟩
  · rw [h2.1 i hi]
    have := C56_floor_divide_partial Fmt.f64 F hF _ _ vx vy q hx hy hq b1 b2
    exact ⟨this.1, this.2.1⟩
  · rw [h2.1 i hi]
    show floatValue 11 52 (floorDivOp F 11 52 64 (m (A.p1 + A.s1 * i)) (m (A.p2 + A.s2 * i))) = .nan
    unfold floorDivOp
    rw [if_neg (by
      intro hc
      have := (feq_iff 11 52 (by decide) _ _).mp hc
      rw [hy] at this; exact this)]
    decide

/-- Non-vacuity: the table has the kernel, and 7.0 / 2.0 has a floor in range. -/
example (F : FloatUnit) : (∃ e, BinaryKernel F .floorDivide .f64 e) ∧ FloorQuotient (7 * floatUnit 11 52) (2 * floatUnit 11 52) 3 :=
  ⟨⟨_, .FLOORDIV, by decide, rfl⟩, Or.inl (by have := unit_pos 11 52; generalize floatUnit 11 52 = u at *; omega)⟩

/-- The hypotheses are met, so the violation happens on a machine that exists. -/
example : ∃ F, IeeeDivide F 11 52 64 := ieeeDivide_exists Fmt.f64

/-- Case: 7.0 // 2.0 on every machine that divides as IEEE says. -/
example (F : FloatUnit) (hF : IeeeDivide F 11 52 64) := C56_floor_divide_partial Fmt.f64 F hF 0x401c000000000000#64 0x4000000000000000#64
  (7 * 2 ^ 1074) (2 * 2 ^ 1074) 3 (by decide +kernel) (by decide +kernel) (Or.inl (by have : (0 : Int) < 2 ^ 1074 := Int.pow_pos (by decide); generalize (2 : Int) ^ 1074 = u at *; omega)) (by decide) (by decide)

end Pnumpy.Props
