import Verif.Props.UnaryTable
import Verif.Props.FloorDiv
import Verif.Spec.Integral
/-
Property theorems C45 and C55: the whole calls np.rint, np.floor, np.ceil and np.trunc on float arrays, down to the bit patterns
of the elements.
-/
namespace Pnumpy.Props
open Pnumpy.Spec Pnumpy.Elem Pnumpy.Dispatch Pnumpy.OpTables Pnumpy.Simd Pnumpy.IntOps Pnumpy.FloatOps Pnumpy.Ieee

/-- The machine's `floor`, `ceil`, `trunc` and C library `round` on patterns of format `(E, M, k)` are those of IEEE-754 and C11. -/
structure IeeeIntegral (F : FloatUnit) (E M k : Nat) : Prop where
  floor : ∀ x : BitVec k, RoundsTo IsFloor (floatUnit E M) (floatValue E M x) (floatValue E M (F.floor k x))
  ceil : ∀ x : BitVec k, RoundsTo IsCeil (floatUnit E M) (floatValue E M x) (floatValue E M (F.ceil k x))
  trunc : ∀ x : BitVec k, RoundsTo IsTrunc (floatUnit E M) (floatValue E M x) (floatValue E M (F.trunc k x))
  round : ∀ x : BitVec k, RoundsTo IsRoundAway (floatUnit E M) (floatValue E M x) (floatValue E M (F.round k x))

/-- The integers next to a float are floats. -/
theorem near_is_float {E M k : Nat} (h : Fmt E M k) (x : BitVec k) (v n : Int) (hv : floatValue E M x = .fin v)
    (h1 : v - floatUnit E M < floatUnit E M * n) (h2 : floatUnit E M * n < v + floatUnit E M) :
    ∃ s : BitVec k, floatValue E M s = .fin (floatUnit E M * n) := by
  have hu := unit_pos E M
  by_cases hb : 2 ^ (M + (2 ^ (E - 1) - 2 + M)) ≤ v.natAbs
  · refine ⟨x, ?_⟩
    have hd := value_dvd _ x v hv hb
    have e : ((2 ^ (2 ^ (E - 1) - 2 + M) : Nat) : Int) = floatUnit E M := by unfold floatUnit; push_cast; rfl
    rw [e] at hd
    obtain ⟨q, rfl⟩ := hd
    have : q = n := by
      have a : floatUnit E M * (q - 1) < floatUnit E M * n := by rw [Int.mul_sub]; omega
      have b : floatUnit E M * n < floatUnit E M * (q + 1) := by rw [Int.mul_add]; omega
      have a' := Int.lt_of_mul_lt_mul_left a (Int.le_of_lt hu)
      have b' := Int.lt_of_mul_lt_mul_left b (Int.le_of_lt hu)
      omega
    rw [hv, this]
  · apply integer_is_float h
    have e : ((2 ^ (M + (2 ^ (E - 1) - 2 + M)) : Nat) : Int) = floatUnit E M * ((2 ^ M : Nat) : Int) := by
      unfold floatUnit; push_cast; rw [← pow_add]; congr 1; omega
    have b1 : floatUnit E M * n < floatUnit E M * (((2 ^ M : Nat) : Int) + 1) := by rw [Int.mul_add]; omega
    have b2 : floatUnit E M * (-((2 ^ M : Nat) : Int) - 1) < floatUnit E M * n := by rw [Int.mul_sub, Int.mul_neg]; omega
    have c1 := Int.lt_of_mul_lt_mul_left b1 (Int.le_of_lt hu)
    have c2 := Int.lt_of_mul_lt_mul_left b2 (Int.le_of_lt hu)
    omega

theorem floor_total (u v : Int) (hu : 0 < u) : ∃ n, IsFloor u v (u * n) := by
  refine ⟨v / u, ⟨_, rfl⟩, ?_, ?_⟩
  · exact Int.mul_ediv_self_le (by omega)
  · have := Int.lt_mul_ediv_self_add (x := v) hu; omega

theorem ceil_total (u v : Int) (hu : 0 < u) : ∃ n, IsCeil u v (u * n) := by
  obtain ⟨n, _, h1, h2⟩ := floor_total u (-v) hu
  refine ⟨-n, ⟨_, rfl⟩, ?_, ?_⟩ <;> rw [Int.mul_neg] <;> omega

theorem trunc_total (u v : Int) (hu : 0 < u) : ∃ n, IsTrunc u v (u * n) := by
  obtain ⟨a, ha⟩ := floor_total u v hu
  obtain ⟨b, hb⟩ := ceil_total u v hu
  by_cases h0 : v = 0
  · subst h0
    exact ⟨0, fun _ => ⟨⟨0, rfl⟩, by simp, by simpa using hu⟩, fun _ => ⟨⟨0, rfl⟩, by simp, by simpa using hu⟩⟩
  · by_cases hp : 0 < v
    · exact ⟨a, fun _ => ha, fun h => by omega⟩
    · exact ⟨b, fun h => by omega, fun _ => hb⟩

theorem round_total (u v : Int) (hu : 0 < u) : ∃ n, IsRoundAway u v (u * n) := by
  by_cases h0 : v = 0
  · exact ⟨0, ⟨_, rfl⟩, by simp [h0]; omega, by simp [h0]; omega, by simp [h0]; omega, by simp [h0]; omega⟩
  by_cases hp : 0 ≤ v
  · obtain ⟨n, _, h1, h2⟩ := floor_total (2 * u) (2 * v + u) (by omega)
    rw [Int.mul_assoc] at h1 h2
    exact ⟨n, ⟨_, rfl⟩, by omega, by omega, by omega, by omega⟩
  · obtain ⟨n, _, h1, h2⟩ := ceil_total (2 * u) (2 * v - u) (by omega)
    rw [Int.mul_assoc] at h1 h2
    exact ⟨n, ⟨_, rfl⟩, by omega, by omega, by omega, by omega⟩

/-- A rounding whose result is always next to the argument can be computed on patterns. -/
theorem rounding_exists {E M k : Nat} (h : Fmt E M k) (R : Int → Int → Int → Prop)
    (ht : ∀ v, ∃ n, R (floatUnit E M) v (floatUnit E M * n))
    (hn : ∀ v w, R (floatUnit E M) v w → v - floatUnit E M < w ∧ w < v + floatUnit E M) (x : BitVec k) :
    ∃ s : BitVec k, RoundsTo R (floatUnit E M) (floatValue E M x) (floatValue E M s) := by
  cases hv : floatValue E M x with
  | fin v =>
    obtain ⟨n, hR⟩ := ht v
    obtain ⟨s, hs⟩ := near_is_float h x v n hv (hn v _ hR).1 (hn v _ hR).2
    exact ⟨s, _, hs, hR⟩
  | nan => exact ⟨x, hv⟩
  | pinf => exact ⟨x, hv⟩
  | ninf => exact ⟨x, hv⟩

/-- A machine with these four operations exists, for each format. -/
theorem ieeeIntegral_exists {E M k : Nat} (h : Fmt E M k) : ∃ F : FloatUnit, IeeeIntegral F E M k := by
  classical
  have hu := unit_pos E M
  let pick (R : Int → Int → Int → Prop) (k' : Nat) (x : BitVec k') : BitVec k' := Classical.epsilon (h := ⟨x⟩)
    (fun s : BitVec k' => RoundsTo R (floatUnit E M) (floatValue E M x) (floatValue E M s))
  have hp : ∀ R : Int → Int → Int → Prop, (∀ v, ∃ n, R (floatUnit E M) v (floatUnit E M * n)) →
      (∀ v w, R (floatUnit E M) v w → v - floatUnit E M < w ∧ w < v + floatUnit E M) →
      ∀ x : BitVec k, RoundsTo R (floatUnit E M) (floatValue E M x) (floatValue E M (pick R k x)) := fun R ht hn x =>
    Classical.epsilon_spec_aux ⟨x⟩ (fun s : BitVec k => RoundsTo R (floatUnit E M) (floatValue E M x) (floatValue E M s))
      (rounding_exists h R ht hn x)
  refine ⟨{ add := fun _ x _ => x, sub := fun _ x _ => x, mul := fun _ x _ => x, div := fun _ x _ => x, sqrt := fun _ x => x
            floor := pick IsFloor, ceil := pick IsCeil, trunc := pick IsTrunc, round := pick IsRoundAway }, ?_, ?_, ?_, ?_⟩
  · exact hp _ (fun v => floor_total _ v hu) (fun v w ⟨_, a, b⟩ => by omega)
  · exact hp _ (fun v => ceil_total _ v hu) (fun v w ⟨_, a, b⟩ => by omega)
  · refine hp _ (fun v => trunc_total _ v hu) (fun v w ⟨a, b⟩ => ?_)
    by_cases h0 : 0 ≤ v
    · obtain ⟨_, c, d⟩ := a h0; omega
    · obtain ⟨_, c, d⟩ := b (by omega); omega
  · exact hp _ (fun v => round_total _ v hu) (fun v w ⟨_, a, b, _⟩ => by omega)

/-- A machine with these operations for both formats exists. -/
theorem ieeeIntegral_both : ∃ F : FloatUnit, IeeeIntegral F 8 23 32 ∧ IeeeIntegral F 11 52 64 := by
  obtain ⟨F, hF⟩ := ieeeIntegral_exists Fmt.f32
  obtain ⟨G, hG⟩ := ieeeIntegral_exists Fmt.f64
  exact ⟨{ F with
      floor := fun k => if k = 32 then F.floor k else G.floor k
      ceil := fun k => if k = 32 then F.ceil k else G.ceil k
      trunc := fun k => if k = 32 then F.trunc k else G.trunc k
      round := fun k => if k = 32 then F.round k else G.round k },
    ⟨hF.floor, hF.ceil, hF.trunc, hF.round⟩, ⟨hG.floor, hG.ceil, hG.trunc, hG.round⟩⟩

/-- The rounding numpy's floor, ceil and trunc perform. -/
def roundingOf : UnFn → Int → Int → Int → Prop
  | .floor => IsFloor | .ceil => IsCeil | _ => IsTrunc

/-- The scale of the values of a float type. -/
def unitOf : DT → Int
  | .f32 => floatUnit 8 23 | _ => floatUnit 11 52

/-- **C55**, the whole call `np.floor(a)`, `np.ceil(a)` or `np.trunc(a)` on float32 or float64 arrays of any length and stride, for any worker limits, schedule and
interleaving: every output element is the floor, ceiling or truncation of its input element; infinities and NaNs stay; every other cell keeps its value. -/
theorem C55_integral (F : FloatUnit) (hF : IeeeIntegral F 8 23 32 ∧ IeeeIntegral F 11 52 64) (fn : UnFn)
    (hfn : fn ∈ [UnFn.floor, .ceil, .trunc]) (t : DT) (ht : t = .f32 ∨ t = .f64) (e : OneFunc)
    (he : UnaryKernel F fn t e) (mt : Int) (w : World) (hw : w.atop = true) (p s po so : Int) (hso : so ≠ 0) (n : Nat)
    (m : Int → BitVec t.bits) (hs : SafeOverlap n p s p s po so)
    (evs : List (Nat × Acc)) (hex : Exec .unary ⟨some e.kernel, mt⟩ ⟨p, s, p, s, po, so⟩ n w evs) :
    ∃ (h : e.inBits = t.bits) (h' : e.outBits = t.bits) (m' : Int → BitVec t.bits),
      runMem (fun x _ => e.at h h' x) m evs = some m' ∧
      (∀ i : Nat, i < n → RoundsTo (roundingOf fn) (unitOf t) (value t (m (p + s * i))) (value t (m' (po + so * i)))) ∧
      (∀ a, (∀ i : Nat, i < n → a ≠ po + so * i) → m' a = m a) := by
  obtain ⟨h, h', m', r1, r2, r3⟩ := C55_floats F fn (by simp at hfn ⊢; tauto) t ht e he mt w hw p s po so hso n m hs evs hex
  refine ⟨h, h', m', r1, fun i hi => ?_, r3⟩
  have hr := r2 i hi
  generalize m' (po + so * i) = r at hr ⊢
  generalize m (p + s * i) = x at hr ⊢
  rcases ht with rfl | rfl <;> simp at hfn <;> rcases hfn with rfl | rfl | rfl <;> (have hr' := hr; simp only [FloatResult1] at hr'; subst hr')
  · exact hF.1.floor x
  · exact hF.1.ceil x
  · exact hF.1.trunc x
  · exact hF.2.floor x
  · exact hF.2.ceil x
  · exact hF.2.trunc x

/-- The rounding the C library's `round` performs is the one C45 is about. -/
theorem roundAway_cRound (u v w : Int) (hu : 0 < u) (h : IsRoundAway u v w) : cRound u (.fin v) = .fin w := by
  obtain ⟨⟨n, rfl⟩, h1, h2, h3, h4⟩ := h
  show Value.fin (if v < 0 then -(u * ((2 * -v + u) / (2 * u))) else u * ((2 * v + u) / (2 * u))) = _
  congr 1
  by_cases hv : v < 0
  · rw [if_pos hv]
    have : (2 * -v + u) / (2 * u) = -n := by
      apply Int.le_antisymm
      · apply Int.lt_add_one_iff.mp
        apply Int.ediv_lt_of_lt_mul (by omega)
        have : (-n + 1) * (2 * u) = 2 * (-(u * n) + u) := by ring
        rw [this]; by_contra hc
        have := h4 (by omega); omega
      · apply Int.le_ediv_of_mul_le (by omega)
        have : -n * (2 * u) = -(2 * (u * n)) := by ring
        rw [this]; omega
    rw [this]; ring
  · rw [if_neg hv]
    have : (2 * v + u) / (2 * u) = n := by
      apply Int.le_antisymm
      · apply Int.lt_add_one_iff.mp
        apply Int.ediv_lt_of_lt_mul (by omega)
        have : (n + 1) * (2 * u) = 2 * (u * n + u) := by ring
        rw [this]; by_contra hc
        have := h3 (by omega); omega
      · apply Int.le_ediv_of_mul_le (by omega)
        have : n * (2 * u) = 2 * (u * n) := by ring
        rw [this]; omega
    rw [this]

/-- When rounding half-way cases away from zero is rounding them to even: the number is not half-way, or the even neighbour is the one farther from zero. -/
theorem rint_iff (u v w : Int) (hu : 0 < u) (h : IsRoundAway u v w) :
    IsRint u v w ↔ ∀ j : Int, 2 * v = u * (2 * j + 1) → ((0 ≤ j ∧ j % 2 = 1) ∨ (j < 0 ∧ j % 2 = 0)) := by
  obtain ⟨⟨n, rfl⟩, h1, h2, h3, h4⟩ := h
  have cancel : ∀ a b : Int, u * a = u * b → a = b := fun a b e => Int.eq_of_mul_eq_mul_left (by omega) e
  have pos : ∀ a : Int, 0 < u * a ↔ 0 < a := fun a => by
    constructor
    · intro h; by_contra hc
      have := Int.mul_nonpos_of_nonneg_of_nonpos (Int.le_of_lt hu) (show a ≤ 0 by omega); omega
    · intro h; exact Int.mul_pos hu h
  have neg : ∀ a : Int, u * a < 0 ↔ a < 0 := fun a => by
    have := pos (-a); rw [Int.mul_neg] at this; omega
  constructor
  · rintro ⟨n', e, _, _, hev⟩ j hj
    obtain rfl := cancel _ _ e
    have e1 : u * (2 * j + 1) = 2 * (u * j) + u := by ring
    have hpj := pos (2 * j + 1)
    have hnj := neg (2 * j + 1)
    -- the distance from `n` is half a unit, so `n` is `j` or `j + 1`
    have hlo : u * (2 * n - 2) < u * (2 * j + 1) := by
      have : u * (2 * n - 2) = 2 * (u * n) - 2 * u := by ring
      omega
    have hhi : u * (2 * j + 1) < u * (2 * n + 2) := by
      have : u * (2 * n + 2) = 2 * (u * n) + 2 * u := by ring
      omega
    have a := Int.lt_of_mul_lt_mul_left hlo (Int.le_of_lt hu)
    have b := Int.lt_of_mul_lt_mul_left hhi (Int.le_of_lt hu)
    rcases (show n = j ∨ n = j + 1 by omega) with rfl | rfl
    · have hd : 2 * (v - u * n) = u := by omega
      have := h3 hd
      have := hev (.inl hd)
      right; omega
    · have e2 : u * (j + 1) = u * j + u := by ring
      have hd : 2 * (v - u * (j + 1)) = -u := by omega
      have := h4 hd
      have := hev (.inr hd)
      left; omega
  · intro hj
    refine ⟨n, rfl, h1, h2, ?_⟩
    rintro (hd | hd)
    · have e1 : u * (2 * n + 1) = 2 * (u * n) + u := by ring
      have := hj n (by omega)
      have hneg := h3 hd
      have hnj := neg (2 * n + 1)
      omega
    · have e1 : u * (2 * (n - 1) + 1) = 2 * (u * n) - u := by ring
      have := hj (n - 1) (by omega)
      have hpos := h4 hd
      have hpj := pos (2 * (n - 1) + 1)
      omega

/-- **C45**, the whole call `np.rint(a)` on double arrays of any length and stride, for any worker limits, schedule and interleaving: an output element is the nearest integer, half-way
cases to even, exactly when its input is not half-way or its even neighbour is the one farther from zero; infinities and NaNs stay; every other cell keeps its value.
Missing: numpy rounds every half-way element to even (`C45_rint_call_violated`). -/
theorem C45_rint_call_partial (F : FloatUnit) (hF : IeeeIntegral F 11 52 64) (e : OneFunc)
    (he : UnaryKernel F .rint .f64 e) (mt : Int) (w : World) (hw : w.atop = true) (p s po so : Int) (hso : so ≠ 0) (n : Nat)
    (m : Int → BitVec 64) (hs : SafeOverlap n p s p s po so)
    (evs : List (Nat × Acc)) (hex : Exec .unary ⟨some e.kernel, mt⟩ ⟨p, s, p, s, po, so⟩ n w evs) :
    ∃ (h : e.inBits = 64) (h' : e.outBits = 64) (m' : Int → BitVec 64),
      runMem (fun x _ => e.at h h' x) m evs = some m' ∧
      (∀ (i : Nat) (v : Int), i < n → floatValue 11 52 (m (p + s * i)) = .fin v →
        ∃ r, floatValue 11 52 (m' (po + so * i)) = .fin r ∧ cRound (floatUnit 11 52) (.fin v) = .fin r ∧
          (IsRint (floatUnit 11 52) v r ↔
            ∀ j : Int, 2 * v = floatUnit 11 52 * (2 * j + 1) → ((0 ≤ j ∧ j % 2 = 1) ∨ (j < 0 ∧ j % 2 = 0)))) ∧
      (∀ i : Nat, i < n → (∀ v, floatValue 11 52 (m (p + s * i)) ≠ .fin v) →
        floatValue 11 52 (m' (po + so * i)) = floatValue 11 52 (m (p + s * i))) ∧
      (∀ a, (∀ i : Nat, i < n → a ≠ po + so * i) → m' a = m a) := by
  obtain ⟨op, hm, he⟩ := he
  obtain ⟨h1, _, h3, _, h5⟩ := un_shape he
  have hop : op = .ROUND ∨ op = .RINT := opOf1 hm
  have h5' : e.outBits = 64 := by rcases hop with rfl | rfl <;> exact h5
  have h1' : e.inBits = 64 := h1
  obtain ⟨m', r1, r2⟩ := C51_enabled_is_kernel .unary ⟨some e.kernel, mt⟩ w hw ⟨p, s, p, s, po, so⟩ n m
    (fun a _ => e.at h1' h5' a) (fits_un _ mt p s po so he) _ rfl (by simp) (fun _ => hso) (Or.inl ⟨h3, hs⟩) evs hex
  have hval : ∀ i : Nat, i < n → m' (po + so * i) = F.round 64 (m (p + s * i)) := by
    intro i hi
    rw [r2.1 i hi]
    simp only
    have he' : e = uslow 64 (F.round 64) := by
      rcases hop with rfl | rfl
      · simp only [unaryOp, Option.some.injEq] at he; exact he.symm
      · simp [unaryOp] at he
    subst he'
    rfl
  refine ⟨h1', h5', m', r1, fun i v hi hv => ?_, fun i hi hnf => ?_, r2.2⟩
  · rw [hval i hi]
    have := hF.round (m (p + s * i))
    rw [hv] at this
    obtain ⟨r, hr, hR⟩ := this
    exact ⟨r, hr, roundAway_cRound _ _ _ (unit_pos 11 52) hR, rint_iff _ _ _ (unit_pos 11 52) hR⟩
  · rw [hval i hi]
    have := hF.round (m (p + s * i))
    cases hc : floatValue 11 52 (m (p + s * i)) with
    | fin v => exact absurd hc (hnf v)
    | nan => rw [hc] at this; exact this
    | pinf => rw [hc] at this; exact this
    | ninf => rw [hc] at this; exact this

/-- **C45, violated** by the whole call: every input element that is half-way above an even non-negative integer (0.5, 2.5, 4.5, …) is rounded up instead of to that even integer. -/
theorem C45_rint_call_violated (F : FloatUnit) (hF : IeeeIntegral F 11 52 64) (e : OneFunc)
    (he : UnaryKernel F .rint .f64 e) (mt : Int) (w : World) (hw : w.atop = true) (p s po so : Int) (hso : so ≠ 0) (n : Nat)
    (m : Int → BitVec 64) (hs : SafeOverlap n p s p s po so)
    (evs : List (Nat × Acc)) (hex : Exec .unary ⟨some e.kernel, mt⟩ ⟨p, s, p, s, po, so⟩ n w evs)
    (i : Nat) (hi : i < n) (v j : Int) (hv : floatValue 11 52 (m (p + s * i)) = .fin v)
    (hj : 2 * v = floatUnit 11 52 * (2 * j + 1)) (h0 : 0 ≤ j) (hev : j % 2 = 0) :
    ∃ (h : e.inBits = 64) (h' : e.outBits = 64) (m' : Int → BitVec 64), runMem (fun x _ => e.at h h' x) m evs = some m' ∧
      ∃ r, floatValue 11 52 (m' (po + so * i)) = .fin r ∧ ¬ IsRint (floatUnit 11 52) v r := by
  obtain ⟨h, h', m', r1, r2, _⟩ := C45_rint_call_partial F hF e he mt w hw p s po so hso n m hs evs hex
  obtain ⟨r, hr, _, hiff⟩ := r2 i v hi hv
  refine ⟨h, h', m', r1, r, hr, fun hc => ?_⟩
  have := hiff.mp hc j hj
  omega

theorem value_half : floatValue 11 52 0x3fe0000000000000#64 = .fin (2 ^ 1073) := by decide +kernel
theorem twice_half : 2 * (2 ^ 1073 : Int) = floatUnit 11 52 * (2 * 0 + 1) := by decide +kernel

/-- Non-vacuity: such machines and kernels exist, and 0.5 is a half-way double above 0. -/
example (F : FloatUnit) : (∃ F, IeeeIntegral F 8 23 32 ∧ IeeeIntegral F 11 52 64) ∧ (∃ e, UnaryKernel F .rint .f64 e) ∧
    (∃ e, UnaryKernel F .floor .f32 e) ∧ SafeOverlap 100000 0 8 0 8 0 8 ∧
    floatValue 11 52 0x3fe0000000000000#64 = .fin (2 ^ 1073) ∧ 2 * (2 ^ 1073 : Int) = floatUnit 11 52 * (2 * 0 + 1) :=
  ⟨ieeeIntegral_both, ⟨_, .ROUND, by decide, rfl⟩, ⟨_, .FLOOR, by decide, rfl⟩,
    by intro i j hi hj hne; omega, value_half, twice_half⟩

end Pnumpy.Props
