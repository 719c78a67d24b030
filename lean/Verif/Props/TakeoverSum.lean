import Verif.Props.TakeoverReduceBits
import Verif.Props.FloatSumInf
import Verif.Props.FloatProd
/-
C113 and C103 together: float64 sums and products while pnumpy is enabled, as whole calls after any sequence of calls.
-/
namespace Pnumpy.Props
open Pnumpy.Spec Pnumpy.Elem Pnumpy.Dispatch Pnumpy.OpTables Pnumpy.Hooks Pnumpy.Takeover Pnumpy.Reduce Pnumpy.IntOps Pnumpy.Simd

/-- While pnumpy is enabled, after an `initialize` that ran to its end, a reduction for which pnumpy has a kernel is carried out by this kernel: in one piece, or (at
least 65536 elements) once per block and then over the results of the blocks. -/
theorem red_kernel (F : FloatUnit) (otherSel : Hook → Bool) (otherKernel : Key → Bool) (hist : List Call)
    (hinit : Call.doInit ∈ hist) (hon : enabledNow hist = true) (fn : BinFn) (d : Nat) (t : DT) (hd : elemType d = some t) (hd' : d < 13)
    (o : Hooks.Op) (hmap : (⟨.binary, objOf fn, o⟩ : Hooks.Entry) ∈ binaryMapping) (e2 : TwoFunc) (hker : (mathOpFast F o t).func = some e2)
    (e : RedFunc) (hred : reduceOpFast F o t = some e)
    (np : Obj → Nat → BitVec t.bits → BitVec t.bits → BitVec t.bits) (w : World) (sr : Int)
    (xs : List (BitVec t.bits)) (init : BitVec t.bits) {m wd : Nat} (hlen : xs.length = m) (hwd : 256 / e.bits = wd) (r)
    (hcall : CallRed F (run (config F true none otherSel otherKernel) hist) (objOf fn) d t np w sr xs init r) :
    ∃ hb : e.bits = t.bits,
      r = reduceFast (e.at hb) wd (layoutOf sr) xs init ∨
      65536 ≤ m ∧ ∃ req mw zz sched, (Work.exec (ufuncItem m req mw zz) sched).pc 0 = .returned ∧
        r = threadedFast (e.at hb) wd (layoutOf sr) ((reduceStartVal o t e.bits).map (BitVec.cast hb)) xs init
          (Work.kernelCalls (ufuncItem m req mw zz) (Work.exec (ufuncItem m req mw zz) sched)) := by
  subst hlen hwd
  obtain ⟨hi, _⟩ := run_inv (config F true none otherSel otherKernel) hist
  rw [if_pos ⟨hinit, rfl⟩] at hi
  have hset := atop_run (config F true none otherSel otherKernel) hist
  have hdm : d ∈ dtypes := by
    have : ∀ d, d < 13 → d ∈ dtypes := by decide
    exact this d hd'
  have hat : atopDT (atype d) = some t := by rw [← elem_atop _ hdm, hd]
  have hmem : ((⟨.binary, objOf fn, o⟩, d) : Hook) ∈ (config F true none otherSel otherKernel).hooks := by
    show _ ∈ allHooks.filter (selects F otherSel)
    refine List.mem_filter.2 ⟨?_, ?_⟩
    · simp only [allHooks, List.mem_append, List.mem_flatMap, List.mem_map]
      exact Or.inl (Or.inl ⟨_, Or.inl (Or.inl hmap), d, hdm, rfl⟩)
    · simp only [selects, hat]
      have := (C53_types F o t e2 hker).2
      rw [this]; rfl
  have hloop := hi.loops (objOf fn) d
  have hkern : ∀ k, (run (config F true none otherSel otherKernel) hist).loops (objOf fn) d = .stub k → k.op = o ∧ reduceFunc F k t = some e := by
    intro k hl
    rw [hl] at hloop
    split at hloop
    · rename_i h' hlast
      obtain ⟨hm, ho, hdd⟩ := lastHook_some hlast
      have hmem' := allHooks_mem h' ((hooks_sublist _).subset hm)
      have hent := bin_unique fn _ (bin_entries fn _ hmem'.1 ho).2 ⟨.binary, objOf fn, o⟩ hmap ho rfl
      cases hloop
      refine ⟨congrArg Hooks.Entry.op hent, ?_⟩
      unfold reduceFunc Hook.key
      rw [if_pos]
      · rw [hent]; exact hred
      · rw [hent, hdd]; exact ⟨rfl, hat⟩
    · cases hloop
  have hon' : (run (config F true none otherSel otherKernel) hist).atop = true := by rw [hset.1, hon]
  cases hcall with
  | unhooked o' d' hl =>
    rw [hl] at hloop
    split at hloop
    · cases hloop
    · rename_i hlast
      unfold lastHook at hlast
      rw [List.find?_eq_none] at hlast
      have := hlast _ (List.mem_reverse.2 hmem)
      simp at this
  | kernelSerial k e' hl hw hat he hb =>
    rw [(hkern k hl).2] at he
    cases he
    exact ⟨hb, Or.inl rfl⟩
  | kernelThreaded k e' hl hw hat he hb mt sched hret =>
    obtain ⟨rfl, he'⟩ := hkern k hl
    rw [he'] at he
    cases he
    refine ⟨hb, Or.inr ⟨?_, mt, _, _, sched, hret, rfl⟩⟩
    unfold World.getsItem at hw
    split at hw
    · cases hw
    · rename_i hng
      exact Nat.not_lt.1 fun h => hng (Or.inl h)
  | savedSerial k o' d' hl hw hno ho => rw [hon', (hkern k hl).2] at hno; rcases hno with h | h <;> cases h
  | savedThreaded k o' d' hl hw hno ho mt sched hret => rw [hon', (hkern k hl).2] at hno; rcases hno with h | h <;> cases h

private theorem close_mono {E M k : Nat} {x : BitVec k} {t ε ε' : ℝ} (h : Close E M x t ε) (he : ε ≤ ε') : Close E M x t ε' := by
  obtain ⟨v, h1, h2⟩ := h
  exact ⟨v, h1, le_trans h2 he⟩

private theorem zero_layout {sr : Int} (h : layoutOf sr = .zero) : sr = 0 := by
  unfold layoutOf at h
  split at h
  · cases h
  · split at h
    · assumption
    · cases h

/-- **C113** with **C103**: while pnumpy is enabled, the float64 sum of `n ≤ 2^51` finite numbers that cannot overflow is within `(n + 12) / 2^52` times the sum of their
absolute values of the exact sum, for every stride, with threads or without, whatever was called before. -/
theorem C113_float64_sum (F : FloatUnit) (hF : IeeeArith F 11 52 64) (otherSel : Hook → Bool) (otherKernel : Key → Bool) (hist : List Call)
    (hinit : Call.doInit ∈ hist) (hon : enabledNow hist = true) (d : Nat) (hd : elemType d = some .f64) (hd' : d < 13)
    (np : Obj → Nat → BitVec 64 → BitVec 64 → BitVec 64) (w : World) (sr : Int) (xs : List (BitVec 64)) (init : BitVec 64) (as : List ℝ) (a : ℝ)
    (hxs : List.Forall₂ (IsReal 11 52) xs as) (hx0 : IsReal 11 52 init a) (hn : 0 < xs.length) (hlen : xs.length ≤ 2 ^ 51)
    (hz : Layed sr xs) (hover : |a| + (as.map abs).sum ≤ 2 ^ 1020) (r)
    (hcall : CallRed F (run (config F true none otherSel otherKernel) hist) (objOf .add) d .f64 np w sr xs init r) :
    ∃ v, r = some v ∧ Close 11 52 v (a + as.sum) (((xs.length : ℝ) + 12) / 2 ^ 52 * (|a| + (as.map abs).sum)) := by
  obtain ⟨hb, h⟩ := red_kernel F otherSel otherKernel hist hinit hon .add d .f64 hd hd' .ADD (by decide) _ rfl _ rfl np w sr xs init rfl (wd := 4) (by simp) r hcall
  obtain ⟨hb', ⟨v, h1, h2⟩, v', h3, h4⟩ := C103_float64_sum F hF _ _ ⟨.ADD, by decide, rfl, rfl⟩ (layoutOf sr) xs init as a hxs hx0 hn hlen
    (fun h => hz (zero_layout h)) hover
  have hS : 0 ≤ |a| + (as.map abs).sum := add_nonneg (abs_nonneg _) (abs_sum_nonneg as)
  have hle : ∀ p : Nat, p ≤ xs.length + 12 → (p : ℝ) / 2 ^ 52 * (|a| + (as.map abs).sum) ≤ ((xs.length : ℝ) + 12) / 2 ^ 52 * (|a| + (as.map abs).sum) := by
    intro p hp
    have hp' : (p : ℝ) ≤ (xs.length : ℝ) + 12 := by exact_mod_cast hp
    exact mul_le_mul_of_nonneg_right (div_le_div_of_nonneg_right hp' (by positivity)) hS
  rcases h with rfl | ⟨hbig, req, mw, zz, sched, hret, rfl⟩
  · refine ⟨v, h1, close_mono h2 (hle _ ?_)⟩
    exact passes_le 4 (by decide) _ _
  · refine ⟨v', h3 req mw zz sched hret, close_mono h4 (hle _ ?_)⟩
    have hd1 := passes_le 4 (by decide) (layoutOf sr) 16384
    have hd2 := passes_le 4 (by decide) .contiguous (xs.length / 16384 + 1)
    change 65536 ≤ xs.length at hbig
    omega

/-- **C113** with **C103**, product: `n ≤ 2^50` nonzero numbers no part of whose product can overflow or underflow. -/
theorem C113_float64_product (F : FloatUnit) (hF : IeeeArith F 11 52 64) (otherSel : Hook → Bool) (otherKernel : Key → Bool) (hist : List Call)
    (hinit : Call.doInit ∈ hist) (hon : enabledNow hist = true) (d : Nat) (hd : elemType d = some .f64) (hd' : d < 13)
    (np : Obj → Nat → BitVec 64 → BitVec 64 → BitVec 64) (w : World) (sr : Int) (xs : List (BitVec 64)) (init : BitVec 64) (as : List ℝ) (a : ℝ)
    (hxs : List.Forall₂ (IsReal 11 52) xs as) (hx0 : IsReal 11 52 init a) (hn : 0 < xs.length) (hlen : xs.length ≤ 2 ^ 50)
    (hz : Layed sr xs) (hnz : ∀ b ∈ a :: as, b ≠ 0) (hrange : ((a :: as).map fun b => max |b| |b|⁻¹).prod ≤ 2 ^ 1000) (r)
    (hcall : CallRed F (run (config F true none otherSel otherKernel) hist) (objOf .multiply) d .f64 np w sr xs init r) :
    ∃ v, r = some v ∧ Close 11 52 v (a * as.prod) (((xs.length + (1 + (xs.length - 1) / 16384) : Nat) : ℝ) / 2 ^ 52 * |a * as.prod|) := by
  obtain ⟨hb, h⟩ := red_kernel F otherSel otherKernel hist hinit hon .multiply d .f64 hd hd' .MUL (by decide) _ rfl _ rfl np w sr xs init rfl (wd := 4) (by simp) r hcall
  obtain ⟨hb', ⟨v, h1, h2⟩, v', h3, h4⟩ := C103_float64_product F hF _ _ ⟨.MUL, by decide, rfl, rfl⟩ (layoutOf sr) xs init as a hxs hx0 hn hlen
    (fun h => hz (zero_layout h)) hnz hrange
  rcases h with rfl | ⟨hbig, req, mw, zz, sched, hret, rfl⟩
  · refine ⟨v, h1, close_mono h2 ?_⟩
    refine mul_le_mul_of_nonneg_right (div_le_div_of_nonneg_right ?_ (by positivity)) (abs_nonneg _)
    exact_mod_cast Nat.le_add_right _ _
  · exact ⟨v', h3 req mw zz sched hret, h4⟩

/-- **C113** with **C103**, NaN: a NaN among the elements makes the sum and the product NaN. -/
theorem C113_float64_nan (F : FloatUnit) (hF : IeeeSpecial F 11 52 64) (otherSel : Hook → Bool) (otherKernel : Key → Bool) (hist : List Call)
    (hinit : Call.doInit ∈ hist) (hon : enabledNow hist = true) (fn : BinFn) (hfn : fn = .add ∨ fn = .multiply) (d : Nat) (hd : elemType d = some .f64)
    (hd' : d < 13) (np : Obj → Nat → BitVec 64 → BitVec 64 → BitVec 64) (w : World) (sr : Int) (xs : List (BitVec 64)) (init : BitVec 64)
    (hx : ∃ x ∈ xs, floatValue 11 52 x = .nan) (hz : Layed sr xs) (r)
    (hcall : CallRed F (run (config F true none otherSel otherKernel) hist) (objOf fn) d .f64 np w sr xs init r) :
    ∃ v, r = some v ∧ floatValue 11 52 v = .nan := by
  rcases hfn with rfl | rfl
  · obtain ⟨hb, h⟩ := red_kernel F otherSel otherKernel hist hinit hon .add d .f64 hd hd' .ADD (by decide) _ rfl _ rfl np w sr xs init rfl (wd := 4) (by simp) r hcall
    obtain ⟨hb', ⟨v, h1, h2⟩, v', h3, h4⟩ := C103_float64_nan F .add (Or.inl rfl) hF _ _ ⟨.ADD, by decide, rfl, rfl⟩ (layoutOf sr) xs init hx
      (fun h => hz (zero_layout h))
    rcases h with rfl | ⟨_, req, mw, zz, sched, hret, rfl⟩
    · exact ⟨v, h1, h2⟩
    · exact ⟨v', h3 req mw zz sched hret, h4⟩
  · obtain ⟨hb, h⟩ := red_kernel F otherSel otherKernel hist hinit hon .multiply d .f64 hd hd' .MUL (by decide) _ rfl _ rfl np w sr xs init rfl (wd := 4) (by simp) r hcall
    obtain ⟨hb', ⟨v, h1, h2⟩, v', h3, h4⟩ := C103_float64_nan F .multiply (Or.inr rfl) hF _ _ ⟨.MUL, by decide, rfl, rfl⟩ (layoutOf sr) xs init hx
      (fun h => hz (zero_layout h))
    rcases h with rfl | ⟨_, req, mw, zz, sched, hret, rfl⟩
    · exact ⟨v, h1, h2⟩
    · exact ⟨v', h3 req mw zz sched hret, h4⟩

/-- **C113** with **C103**, integers: the sum of integers whose absolute values add up to at most `2^53` is exact. -/
theorem C113_float64_integers (F : FloatUnit) (hF : IeeeArith F 11 52 64) (otherSel : Hook → Bool) (otherKernel : Key → Bool) (hist : List Call)
    (hinit : Call.doInit ∈ hist) (hon : enabledNow hist = true) (d : Nat) (hd : elemType d = some .f64) (hd' : d < 13)
    (np : Obj → Nat → BitVec 64 → BitVec 64 → BitVec 64) (w : World) (sr : Int) (xs : List (BitVec 64)) (init : BitVec 64) (zs : List Int) (z : Int)
    (hxs : List.Forall₂ (fun x (z : Int) => IsReal 11 52 x z) xs zs) (hx0 : IsReal 11 52 init z) (hn : 0 < xs.length)
    (hz : Layed sr xs) (hsum : z.natAbs + (zs.map Int.natAbs).sum ≤ 2 ^ 53) (r)
    (hcall : CallRed F (run (config F true none otherSel otherKernel) hist) (objOf .add) d .f64 np w sr xs init r) :
    ∃ v, r = some v ∧ IsReal 11 52 v (z + zs.sum : Int) := by
  obtain ⟨hb, h⟩ := red_kernel F otherSel otherKernel hist hinit hon .add d .f64 hd hd' .ADD (by decide) _ rfl _ rfl np w sr xs init rfl (wd := 4) (by simp) r hcall
  obtain ⟨hb', ⟨v, h1, h2⟩, v', h3, h4⟩ := C103_float64_integers F hF _ _ ⟨.ADD, by decide, rfl, rfl⟩ (layoutOf sr) xs init zs z hxs hx0 hn
    (fun h => hz (zero_layout h)) hsum
  rcases h with rfl | ⟨_, req, mw, zz, sched, hret, rfl⟩
  · exact ⟨v, h1, h2⟩
  · exact ⟨v', h3 req mw zz sched hret, h4⟩

/-- **C113** with **C103**, infinities: infinities of one sign make the sum that infinity, of both signs NaN. -/
theorem C113_float64_infinities (F : FloatUnit) (hF : IeeeArith F 11 52 64) (hS : IeeeSpecial F 11 52 64) (otherSel : Hook → Bool) (otherKernel : Key → Bool)
    (hist : List Call) (hinit : Call.doInit ∈ hist) (hon : enabledNow hist = true) (d : Nat) (hd : elemType d = some .f64) (hd' : d < 13)
    (np : Obj → Nat → BitVec 64 → BitVec 64 → BitVec 64) (w : World) (sr : Int) (xs : List (BitVec 64)) (init : BitVec 64)
    (hn : 0 < xs.length) (hlen : xs.length ≤ 2 ^ 51) (hz : Layed sr xs) (hover : |realOf init| + (xs.map fun x => |realOf x|).sum ≤ 2 ^ 1020)
    (v : Value) (hv : sumSpecial (floatValue 11 52 init :: xs.map (floatValue 11 52)) = some v) (r)
    (hcall : CallRed F (run (config F true none otherSel otherKernel) hist) (objOf .add) d .f64 np w sr xs init r) :
    ∃ y, r = some y ∧ floatValue 11 52 y = v := by
  obtain ⟨hb, h⟩ := red_kernel F otherSel otherKernel hist hinit hon .add d .f64 hd hd' .ADD (by decide) _ rfl _ rfl np w sr xs init rfl (wd := 4) (by simp) r hcall
  obtain ⟨hb', ⟨y, h1, h2⟩, y', h3, h4⟩ := C103_float64_infinities F hF hS _ _ ⟨.ADD, by decide, rfl, rfl⟩ (layoutOf sr) xs init hn hlen
    (fun h => hz (zero_layout h)) hover v hv
  rcases h with rfl | ⟨_, req, mw, zz, sched, hret, rfl⟩
  · exact ⟨y, h1, h2⟩
  · exact ⟨y', h3 req mw zz sched hret, h4⟩

private theorem real_of {x : BitVec 64} {z : Int} (h : floatValue 11 52 x = .fin (z * 2 ^ 1074)) : IsReal 11 52 x z := by
  refine ⟨_, h, ?_⟩
  have hu : floatUnit 11 52 = 2 ^ 1074 := by unfold floatUnit; norm_num
  have hU := unitR_pos 11 52
  rw [← hu]; push_cast
  field_simp

private theorem forall_rep {α β : Type} {R : α → β → Prop} {x : α} {y : β} (h : R x y) (n : Nat) : List.Forall₂ R (List.replicate n x) (List.replicate n y) := by
  induction n with
  | zero => exact .nil
  | succ n ih => exact .cons h ih

/-- Case: 100000 numbers, every second element of an array, with pnumpy enabled again after it was disabled; the machine's arithmetic exists, the call ends. -/
example (xs : List (BitVec 64)) (as : List ℝ) (h : List.Forall₂ (IsReal 11 52) xs as) (hl : xs.length = 100000) (hs : (as.map abs).sum ≤ 2 ^ 1020) (w : World)
    (np : Obj → Nat → BitVec 64 → BitVec 64 → BitVec 64) :
    ∃ F v, CallRed F (run (config F true none (fun _ => false) (fun _ => false)) [.atopEnable, .atopDisable, .doInit]) (objOf .add) 12 .f64 np w 2 xs 0 (some v) ∧
      Close 11 52 v as.sum (100012 / 2 ^ 52 * (as.map abs).sum) := by
  obtain ⟨F, hF, _⟩ := ieeeArith_exists Fmt.f64
  obtain ⟨r, hr⟩ := C113_reduction_finishes F (config F true none (fun _ => false) (fun _ => false)) [.atopEnable, .atopDisable, .doInit] .add 12 .f64 np w 2 xs (0#64)
  obtain ⟨v, rfl, hv⟩ := C113_float64_sum F hF _ _ [.atopEnable, .atopDisable, .doInit] (by decide) rfl 12 (by decide +kernel) (by decide) np w 2 xs 0 as 0 h
    ⟨0, value_zeroPattern Fmt.f64, by simp⟩ (by omega) (by omega) (by intro h; cases h) (by simpa using hs) r hr
  refine ⟨F, v, hr, ?_⟩
  rw [hl] at hv
  simp only [zero_add, abs_zero] at hv
  norm_num at hv ⊢
  exact hv

/-- Case: 70000 twos backwards, starting from 1, add up to 140001. -/
example (F : FloatUnit) (hF : IeeeArith F 11 52 64) (w : World) (np : Obj → Nat → BitVec 64 → BitVec 64 → BitVec 64) (r)
    (hr : CallRed F (run (config F true none (fun _ => false) (fun _ => false)) [.doInit]) (objOf .add) 12 .f64 np w (-1) (List.replicate 70000 (0x4000000000000000#64)) (0x3ff0000000000000#64) r) :
    ∃ v, r = some v ∧ IsReal 11 52 v (140001 : Int) := by
  have := C113_float64_integers F hF _ _ [.doInit] (by decide) rfl 12 (by decide +kernel) (by decide) np w (-1) (List.replicate 70000 (0x4000000000000000#64)) (0x3ff0000000000000#64)
    (List.replicate 70000 2) 1
    (forall_rep (R := fun x (z : Int) => IsReal 11 52 x z) (real_of (x := 0x4000000000000000#64) (z := 2) (by decide +kernel)) _) (real_of (by decide +kernel)) (by rw [List.length_replicate]; decide) (by intro h; cases h)
    (by rw [List.map_replicate, List.sum_replicate]; decide) r hr
  rw [List.sum_replicate] at this
  simpa using this

/-- Case: a product of 50 twos. -/
example (F : FloatUnit) (hF : IeeeArith F 11 52 64) (w : World) (np : Obj → Nat → BitVec 64 → BitVec 64 → BitVec 64) (r)
    (hr : CallRed F (run (config F true none (fun _ => false) (fun _ => false)) [.doInit]) (objOf .multiply) 12 .f64 np w 3 (List.replicate 50 (0x4000000000000000#64)) (0x3ff0000000000000#64) r) :
    ∃ v, r = some v ∧ Close 11 52 v (2 ^ 50) (51 / 2 ^ 52 * 2 ^ 50) := by
  have hm : max |(2 : ℝ)| |(2 : ℝ)|⁻¹ = 2 := by
    rw [abs_of_pos (by norm_num : (0 : ℝ) < 2)]; exact max_eq_left (by norm_num)
  obtain ⟨v, rfl, hv⟩ := C113_float64_product F hF _ _ [.doInit] (by decide) rfl 12 (by decide +kernel) (by decide) np w 3 (List.replicate 50 (0x4000000000000000#64)) (0x3ff0000000000000#64)
    (List.replicate 50 2) 1 (forall_rep (by exact_mod_cast real_of (z := 2) (by decide +kernel)) _) (by exact_mod_cast real_of (z := 1) (by decide +kernel)) (by decide)
    (by rw [List.length_replicate]; norm_num) (by intro h; cases h) (by
      intro b hb
      simp only [List.mem_cons, List.mem_replicate] at hb
      rcases hb with rfl | ⟨_, rfl⟩ <;> norm_num) (by
      rw [List.map_cons, List.map_replicate, List.prod_cons, List.prod_replicate, hm]
      rw [show max |(1 : ℝ)| |(1 : ℝ)|⁻¹ = 1 by simp, one_mul]
      exact pow_le_pow_right₀ (by norm_num) (by norm_num)) r hr
  refine ⟨v, rfl, ?_⟩
  rw [List.prod_replicate, List.length_replicate] at hv
  norm_num at hv ⊢
  exact hv

/-- Cases: a NaN and an infinity among the elements. -/
example (F : FloatUnit) (hF : IeeeSpecial F 11 52 64) (w : World) (np : Obj → Nat → BitVec 64 → BitVec 64 → BitVec 64) (r) (l xs : List (BitVec 64))
    (hx : xs = l ++ [0x7ff8000000000000])
    (hr : CallRed F (run (config F true none (fun _ => false) (fun _ => false)) [.doInit]) (objOf .add) 12 .f64 np w 1 xs (0#64) r) :
    ∃ v, r = some v ∧ floatValue 11 52 v = .nan :=
  C113_float64_nan F hF _ _ [.doInit] (by decide) rfl .add (Or.inl rfl) 12 (by decide +kernel) (by decide) np w 1 xs 0
    ⟨0x7ff8000000000000, (by rw [hx]; simp), (by decide +kernel)⟩ (by intro h; cases h) r hr
example (F : FloatUnit) (hF : IeeeArith F 11 52 64) (hS : IeeeSpecial F 11 52 64) (w : World) (np : Obj → Nat → BitVec 64 → BitVec 64 → BitVec 64) (r)
    (xs : List (BitVec 64)) (hx : xs = [0x7ff0000000000000, 0])
    (hr : CallRed F (run (config F true none (fun _ => false) (fun _ => false)) [.doInit]) (objOf .add) 12 .f64 np w 1 xs (0#64) r) :
    ∃ y, r = some y ∧ floatValue 11 52 y = .pinf := by
  refine C113_float64_infinities F hF hS _ _ [.doInit] (by decide) rfl 12 (by decide +kernel) (by decide) np w 1 xs 0 (by rw [hx]; decide) (by rw [hx]; simp)
    (by intro h; cases h) ?_ .pinf (by rw [hx]; decide +kernel) r hr
  have h1 : realOf (0 : BitVec 64) = 0 := by unfold realOf; rw [show floatValue 11 52 (0 : BitVec 64) = .fin 0 by decide +kernel]; simp
  have h2 : realOf (0x7ff0000000000000 : BitVec 64) = 0 := by unfold realOf; rw [show floatValue 11 52 (0x7ff0000000000000 : BitVec 64) = .pinf by decide +kernel]
  rw [hx, List.map_cons, List.map_cons, List.map_nil, h1, h2]
  simp

end Pnumpy.Props
