import Verif.Model.Compare
import Mathlib.Tactic.IntervalCases
/-
Lane lemmas for the SIMD model.
-/
namespace Pnumpy.Simd
variable {N : Nat}

theorem getLsbD_ofBits (f : Nat → Bool) : ∀ {N i : Nat}, i < N → (ofBits N f).getLsbD i = f i := by
  intro N
  induction N with
  | zero => intro i h; omega
  | succ n ih =>
    intro i h
    rw [ofBits, BitVec.getLsbD_cons]
    by_cases he : i = n
    · simp [he]
    · rw [if_neg he]; exact ih (by omega)

theorem getLsbD_lane (w : Nat) (r : BitVec N) (d j : Nat) :
    (lane w r d).getLsbD j = (decide (j < w) && r.getLsbD (w * d + j)) := by
  simp [lane, BitVec.getLsbD_extractLsb']

theorem lane_ofLanes {w : Nat} (f : Nat → BitVec w) {d : Nat} (h : w * d + w ≤ N) :
    lane w (ofLanes N w f) d = f d := by
  apply BitVec.eq_of_getLsbD_eq
  intro j hj
  rw [getLsbD_lane, ofLanes, getLsbD_ofBits _ (by omega), Nat.mul_add_div (by omega),
    Nat.mul_add_mod, Nat.mod_eq_of_lt hj, Nat.div_eq_of_lt hj]
  simp [hj]

/-- A narrow lane inside a wide lane. -/
theorem lane_lane {w v : Nat} (r : BitVec N) (d e : Nat) (h : v * e + v ≤ w) :
    lane v (lane w r d) e = r.extractLsb' (w * d + v * e) v := by
  apply BitVec.eq_of_getLsbD_eq
  intro j hj
  rw [getLsbD_lane, getLsbD_lane, BitVec.getLsbD_extractLsb']
  simp only [hj, decide_true, Bool.true_and]
  rw [show decide (v * e + j < w) = true by simp; omega]
  simp [Nat.add_assoc]

theorem lane_lane' {w v c : Nat} (r : BitVec N) (d e : Nat) (hw : w = v * c) (h : e < c) :
    lane v (lane w r d) e = lane v r (c * d + e) := by
  rw [lane_lane]
  · unfold lane
    congr 1
    rw [hw, Nat.mul_add, Nat.mul_assoc]
  · rw [hw]
    calc v * e + v = v * (e + 1) := by rw [Nat.mul_add, Nat.mul_one]
      _ ≤ v * c := Nat.mul_le_mul_left _ h

theorem lane_and (w : Nat) (x y : BitVec N) (d : Nat) : lane w (x &&& y) d = lane w x d &&& lane w y d := by
  apply BitVec.eq_of_getLsbD_eq
  intro j hj
  rw [getLsbD_lane, BitVec.getLsbD_and, BitVec.getLsbD_and, getLsbD_lane, getLsbD_lane]
  simp [hj]

theorem lane_or (w : Nat) (x y : BitVec N) (d : Nat) : lane w (x ||| y) d = lane w x d ||| lane w y d := by
  apply BitVec.eq_of_getLsbD_eq
  intro j hj
  rw [getLsbD_lane, BitVec.getLsbD_or, BitVec.getLsbD_or, getLsbD_lane, getLsbD_lane]
  simp [hj]

theorem lane_xor (w : Nat) (x y : BitVec N) (d : Nat) : lane w (x ^^^ y) d = lane w x d ^^^ lane w y d := by
  apply BitVec.eq_of_getLsbD_eq
  intro j hj
  rw [getLsbD_lane, BitVec.getLsbD_xor, BitVec.getLsbD_xor, getLsbD_lane, getLsbD_lane]
  simp [hj]

/-- Lane `d` of `r` is `v` where `b` holds, else 0. -/
def IsSel (w : Nat) (r : BitVec N) (v : BitVec w) (b : Nat → Bool) : Prop :=
  ∀ d, w * d + w ≤ N → lane w r d = if b d then v else 0

theorem isSel_cmpLanes {w : Nat} (p : BitVec w → BitVec w → Bool) (x y : BitVec N) :
    IsSel w (cmpLanes w p x y) (BitVec.allOnes w) (fun d => p (lane w x d) (lane w y d)) := by
  intro d hd
  rw [cmpLanes, lane_ofLanes _ hd]

theorem IsSel.congr {w : Nat} {r : BitVec N} {v : BitVec w} {b c : Nat → Bool} (h : IsSel w r v b)
    (hbc : ∀ d, w * d + w ≤ N → b d = c d) : IsSel w r v c := by
  intro d hd; rw [h d hd, hbc d hd]

/-- A compare mask seen through narrower lanes. -/
theorem IsSel.narrow {w v c : Nat} {r : BitVec N} {b : Nat → Bool} (hc : 0 < c)
    (h : IsSel w r (BitVec.allOnes w) b) (hw : w = v * c) (hN : N % w = 0) :
    IsSel v r (BitVec.allOnes v) (fun d => b (d / c)) := by
  intro d hd
  have he : d % c < c := Nat.mod_lt _ hc
  have hd' : d = c * (d / c) + d % c := (Nat.div_add_mod d c).symm
  rw [hd', ← lane_lane' (w := w) r (d / c) (d % c) hw he, h (d / c)]
  · rw [← hd']
    split
    · apply BitVec.eq_of_getLsbD_eq
      intro j hj
      rw [getLsbD_lane]
      have : v * (d % c) + j < w := by
        rw [hw]
        calc v * (d % c) + j < v * (d % c) + v := by omega
          _ = v * (d % c + 1) := by rw [Nat.mul_add, Nat.mul_one]
          _ ≤ v * c := Nat.mul_le_mul_left _ he
      simp [hj, this]
    · apply BitVec.eq_of_getLsbD_eq
      intro j hj
      simp [getLsbD_lane]
  · by_cases hv : v = 0
    · subst hv; simp at hw; subst hw; simp
    · obtain ⟨q, hq⟩ := Nat.dvd_of_mod_eq_zero hN
      have : d / c < q := by
        rw [Nat.div_lt_iff_lt_mul hc]
        have h1 : v * (d + 1) ≤ v * (q * c) := by
          rw [Nat.mul_add, Nat.mul_one]
          calc v * d + v ≤ N := hd
            _ = v * (q * c) := by rw [hq, hw, Nat.mul_assoc, Nat.mul_comm c q]
        exact Nat.lt_of_succ_le (Nat.le_of_mul_le_mul_left h1 (Nat.pos_of_ne_zero hv))
      rw [hq]
      calc w * (d / c) + w = w * (d / c + 1) := by rw [Nat.mul_add, Nat.mul_one]
        _ ≤ w * q := Nat.mul_le_mul_left _ this

theorem IsSel.packs32 {x y : BitVec N} {a b : Nat → Bool} (hN : N % 128 = 0)
    (hx : IsSel 32 x (BitVec.allOnes 32) a) (hy : IsSel 32 y (BitVec.allOnes 32) b) :
    IsSel 16 (packs32 x y) (BitVec.allOnes 16)
      (fun j => if j % 8 < 4 then a (4 * (j / 8) + j % 8) else b (4 * (j / 8) + (j % 8 - 4))) := by
  intro j hj
  rw [Simd.packs32, lane_ofLanes _ hj]
  dsimp only
  by_cases h : j % 8 < 4
  · simp only [if_pos h]; rw [hx _ (by omega)]
    cases a (4 * (j / 8) + j % 8) <;> decide
  · simp only [if_neg h]; rw [hy _ (by omega)]
    cases b (4 * (j / 8) + (j % 8 - 4)) <;> decide

theorem IsSel.packs16 {x y : BitVec N} {v : BitVec 16} {a b : Nat → Bool} (hN : N % 128 = 0)
    (hx : IsSel 16 x v a) (hy : IsSel 16 y v b) :
    IsSel 8 (packs16 x y) (sat8 v)
      (fun j => if j % 16 < 8 then a (8 * (j / 16) + j % 16) else b (8 * (j / 16) + (j % 16 - 8))) := by
  have hs : sat8 0 = 0 := by decide
  intro j hj
  rw [Simd.packs16, lane_ofLanes _ hj]
  dsimp only
  by_cases h : j % 16 < 8
  · simp only [if_pos h]; rw [hx _ (by omega)]
    cases a (8 * (j / 16) + j % 16) <;> first | exact hs | rfl
  · simp only [if_neg h]; rw [hy _ (by omega)]
    cases b (8 * (j / 16) + (j % 16 - 8)) <;> first | exact hs | rfl

theorem IsSel.and {w : Nat} {x y : BitVec N} {u v : BitVec w} {a : Nat → Bool}
    (hx : IsSel w x u a) (hy : ∀ d, w * d + w ≤ N → lane w y d = v) : IsSel w (x &&& y) (u &&& v) a := by
  intro d hd
  rw [lane_and, hx d hd, hy d hd]
  split <;> simp

theorem lane_set1 {w : Nat} (v : BitVec w) {d : Nat} (hd : w * d + w ≤ N) : lane w (set1 N v) d = v := by
  rw [set1, lane_ofLanes _ hd]

theorem lane_load {k : Nat} (xs : Nat → BitVec k) (p : Nat) {d : Nat} (hd : k * d + k ≤ N) :
    lane k (load N xs p) d = xs (p + d) := by
  rw [load, lane_ofLanes _ hd]

/-- Byte of a permuted register. -/
theorem lane_permute {x idx : BitVec 256} {i : Nat} (hi : i < 32) :
    lane 8 (permute32 x idx) i = lane 8 x (4 * ((lane 32 idx (i / 4)).toNat % 8) + i % 4) := by
  have h1 : lane 8 (permute32 x idx) i = lane 8 (lane 32 (permute32 x idx) (i / 4)) (i % 4) := by
    rw [lane_lane' (c := 4) _ _ _ rfl (by omega)]
    congr 1; omega
  rw [h1, permute32, lane_ofLanes _ (by omega), lane_lane' (c := 4) _ _ _ rfl (by omega)]

theorem IsSel.or {w : Nat} {x y : BitVec N} {v : BitVec w} {a b : Nat → Bool}
    (hx : IsSel w x v a) (hy : IsSel w y v b) : IsSel w (x ||| y) v (fun d => a d || b d) := by
  intro d hd
  rw [lane_or, hx d hd, hy d hd]
  show _ = if (a d || b d) then v else 0
  cases a d <;> cases b d <;> simp

theorem IsSel.xorSelf {w : Nat} {x y : BitVec N} {v : BitVec w} {a : Nat → Bool}
    (hx : IsSel w x v a) (hy : ∀ d, w * d + w ≤ N → lane w y d = v) : IsSel w (x ^^^ y) v (fun d => !a d) := by
  intro d hd
  rw [lane_xor, hx d hd, hy d hd]
  show _ = if !a d then v else 0
  cases a d <;> simp

theorem IsSel.shuffle {x idx : BitVec N} {v : BitVec 8} {b : Nat → Bool} (hN : N % 128 = 0)
    (hx : IsSel 8 x v b) :
    IsSel 8 (shuffle8 x idx) v
      (fun j => if (lane 8 idx j).msb then false else b (16 * (j / 16) + (lane 8 idx j).toNat % 16)) := by
  intro j hj
  rw [shuffle8, lane_ofLanes _ hj]
  cases h : (lane 8 idx j).msb
  · simp only [Bool.false_eq_true, if_false]
    rw [hx _ (by omega)]
    simp [h]
  · simp [h]

theorem lane16 (x : BitVec N) (j : Nat) : lane 16 x j = lane 8 x (2 * j + 1) ++ lane 8 x (2 * j) := by
  apply BitVec.eq_of_getLsbD_eq
  intro i hi
  rw [BitVec.getLsbD_append, getLsbD_lane, getLsbD_lane, getLsbD_lane]
  by_cases h : i < 8
  · simp [h, hi, show 8 * (2 * j) = 16 * j by omega]
  · rw [show 8 * (2 * j + 1) + (i - 8) = 16 * j + i by omega]
    simp [h, hi, show i - 8 < 8 by omega]

theorem IsSel.widenBoth {x : BitVec N} {b : Nat → Bool} (hx : IsSel 8 x 0xFF b)
    (hb : ∀ j, 16 * j + 16 ≤ N → b (2 * j + 1) = b (2 * j)) : IsSel 16 x 0xFFFF (fun j => b (2 * j)) := by
  intro j hj
  rw [lane16, hx _ (by omega), hx _ (by omega), hb j hj]
  show _ = if b (2 * j) then _ else _
  cases b (2 * j) <;> rfl

theorem lane_extract128 (x : BitVec 256) (h : Nat) {i : Nat} (hi : i < 16) :
    lane 8 (extract128 x h) i = lane 8 x (16 * h + i) :=
  lane_lane' (c := 16) x h i rfl hi

theorem lane_eq_half (x : BitVec 256) (j : Nat) :
    lane 16 x j = lane 16 (lane 128 x (j / 8)) (j % 8) := by
  rw [lane_lane' (c := 8) _ _ _ rfl (by omega)]
  congr 1; omega

theorem IsSel.dupHigh {x : BitVec 256} {v : BitVec 16} {a : Nat → Bool} (hx : IsSel 16 x v a) :
    IsSel 16 (insert128 x (extract128 x 1) 0) v (fun j => if j < 8 then a (8 + j) else a j) := by
  intro j hj
  rw [lane_eq_half, insert128, lane_ofLanes _ (by omega)]
  by_cases h : j < 8
  · simp only [show j / 8 = 0 by omega, if_true, h]
    rw [extract128, lane_lane' (c := 8) _ _ _ rfl (by omega), show 8 * 1 + j % 8 = 8 + j by omega,
      hx _ (by omega)]
  · simp only [show j / 8 ≠ 0 by omega, if_false, h]
    rw [← lane_eq_half, hx _ hj]

theorem getLsbD_movemask {w n : Nat} (x : BitVec N) {i : Nat} (hi : i < n) :
    (movemask w n x).getLsbD i = (lane w x i).msb := by
  rw [movemask, getLsbD_ofBits _ hi]

theorem msb_sel {w : Nat} (hw : 0 < w) (b : Bool) : (if b then BitVec.allOnes w else 0).msb = b := by
  cases b
  · simp
  · simp [BitVec.msb_eq_getLsbD_last, hw]

end Pnumpy.Simd

namespace Pnumpy.Compare
open Pnumpy.Simd

theorem lane_setEpi8 (l : List Nat) {j : Nat} (hj : j < 32) :
    lane 8 (setEpi8 l) j = BitVec.ofNat 8 (l.getD (31 - j) 0) := by
  rw [setEpi8, lane_ofLanes _ (by omega)]

theorem lane_shuffle {x : BitVec 256} (l : List Nat) {j : Nat} (hj : j < 32) :
    lane 8 (shuffle8 x (setEpi8 l)) j =
      if (BitVec.ofNat 8 (l.getD (31 - j) 0)).msb then 0
      else lane 8 x (16 * (j / 16) + (BitVec.ofNat 8 (l.getD (31 - j) 0)).toNat % 16) := by
  rw [shuffle8, lane_ofLanes _ (by omega), lane_setEpi8 l hj]

/-- Source dword of each output dword of `g_permute`. -/
def permSrc (j : Nat) : Nat := [0, 4, 1, 5, 2, 6, 3, 7].getD j 0

theorem permSrc_eq : ∀ {q : Nat}, q < 8 →
    (BitVec.ofNat 32 ([7, 3, 6, 2, 5, 1, 4, 0].getD (7 - q) 0)).toNat % 8 = permSrc q := by
  decide

theorem lane_g_permute {x : BitVec 256} {i : Nat} (hi : i < 32) :
    lane 8 (permute32 x g_permute) i = lane 8 x (4 * permSrc (i / 4) + i % 4) := by
  have h : (lane 32 g_permute (i / 4)).toNat % 8 = permSrc (i / 4) := by
    rw [g_permute, setEpi32, lane_ofLanes _ (by omega)]
    exact permSrc_eq (by omega)
  rw [lane_permute hi, h]

theorem permIdx_lt {i : Nat} (hi : i < 32) : 8 * (4 * permSrc (i / 4) + i % 4) + 8 ≤ 256 := by
  revert i; decide

theorem floatIdx (e : Nat → Bool) {i : Nat} (hi : i < 32) :
    (fun j => if j % 16 < 8 then
        (fun j => if j % 8 < 4 then (fun d => e (8 * 0 + d)) (4 * (j / 8) + j % 8)
          else (fun d => e (8 * 1 + d)) (4 * (j / 8) + (j % 8 - 4))) (8 * (j / 16) + j % 16)
      else (fun j => if j % 8 < 4 then (fun d => e (8 * 2 + d)) (4 * (j / 8) + j % 8)
          else (fun d => e (8 * 3 + d)) (4 * (j / 8) + (j % 8 - 4))) (8 * (j / 16) + (j % 16 - 8)))
      (4 * permSrc (i / 4) + i % 4) = e i := by
  interval_cases i <;> rfl

theorem byte_and_one (v : BitVec 8) (hv : v &&& 1 = 1) (b : Bool) :
    (if b then v else 0) &&& 1 = boolByte b := by
  cases b
  · exact BitVec.zero_and
  · exact hv

/-- **Lane order of the 32 x float / int32 packing.** -/
theorem combFloat_byte {c : Nat → BitVec 256} {e : Nat → Bool}
    (h : ∀ t, t < 4 → IsSel 32 (c t) (BitVec.allOnes 32) (fun d => e (8 * t + d))) {i : Nat} (hi : i < 32) :
    lane 8 (combFloat (c 0) (c 1) (c 2) (c 3)) i = boolByte (e i) := by
  have hp := IsSel.packs16 (by decide)
    (IsSel.packs32 (by decide) (h 0 (by decide)) (h 1 (by decide)))
    (IsSel.packs32 (by decide) (h 2 (by decide)) (h 3 (by decide)))
  rw [combFloat, lane_and, g_ones, lane_set1 _ (by omega), lane_g_permute hi]
  rw [hp _ (permIdx_lt hi), floatIdx e hi]
  exact byte_and_one _ (by decide) _

theorem idx_lane (l : List Nat) {j : Nat} (hj : j < 32) :
    lane 8 (setEpi8 l) j = BitVec.ofNat 8 (l.getD (31 - j) 0) := by
  rw [setEpi8, lane_ofLanes _ (by omega)]

/-- Selection after `_mm256_shuffle_epi8` with a literal index list. -/
def shufSel (l : List Nat) (b : Nat → Bool) (j : Nat) : Bool :=
  let c := BitVec.ofNat 8 (l.getD (31 - j) 0)
  if c.msb then false else b (16 * (j / 16) + c.toNat % 16)

theorem shuffle_sel {x : BitVec 256} {v : BitVec 8} {b : Nat → Bool} (l : List Nat)
    (hx : IsSel 8 x v b) : IsSel 8 (shuffle8 x (setEpi8 l)) v (shufSel l b) := by
  refine (IsSel.shuffle (by decide) hx).congr fun j hj => ?_
  simp only [shufSel, idx_lane l (show j < 32 by omega)]

theorem permute_sel {x : BitVec 256} {v : BitVec 8} {b : Nat → Bool} (hx : IsSel 8 x v b) :
    IsSel 8 (permute32 x g_permute) v (fun i => b (4 * permSrc (i / 4) + i % 4)) := by
  intro i hi
  rw [lane_g_permute (by omega), hx _ (permIdx_lt (by omega))]

theorem narrow8 {x : BitVec 256} {b : Nat → Bool} (h : IsSel 32 x (BitVec.allOnes 32) b) :
    IsSel 8 x 0xFF (fun d => b (d / 4)) :=
  IsSel.narrow (v := 8) (c := 4) (by decide) h rfl (by decide)

/-- The index lists of `g_shuffle1..4`. -/
def shufList : Nat → List Nat
  | 0 => [0x80,0x80,0x80,0x80,0x80,0x80,0x80,0x80,0x80,0x80,0x80,0x80,12,8,4,0,
  0x80,0x80,0x80,0x80,0x80,0x80,0x80,0x80,0x80,0x80,0x80,0x80,12,8,4,0]
  | 1 => [0x80,0x80,0x80,0x80,0x80,0x80,0x80,0x80,12,8,4,0,0x80,0x80,0x80,0x80,
  0x80,0x80,0x80,0x80,0x80,0x80,0x80,0x80,12,8,4,0,0x80,0x80,0x80,0x80]
  | 2 => [0x80,0x80,0x80,0x80,12,8,4,0,0x80,0x80,0x80,0x80,0x80,0x80,0x80,0x80,
  0x80,0x80,0x80,0x80,12,8,4,0,0x80,0x80,0x80,0x80,0x80,0x80,0x80,0x80]
  | _ => [12,8,4,0,0x80,0x80,0x80,0x80,0x80,0x80,0x80,0x80,0x80,0x80,0x80,0x80,
  12,8,4,0,0x80,0x80,0x80,0x80,0x80,0x80,0x80,0x80,0x80,0x80,0x80,0x80]

/-- Selection by the `t`-th shuffle of a mask of 8 dwords. -/
def sh (e : Nat → Bool) (t : Nat) : Nat → Bool := shufSel (shufList t) (fun d => e (8 * t + d / 4))

theorem int32SIdx (e : Nat → Bool) {i : Nat} (hi : i < 32) (j : Nat) (hj : j = 4 * permSrc (i / 4) + i % 4) :
    ((sh e 0 j || sh e 1 j) || (sh e 2 j || sh e 3 j)) = e i := by
  subst hj
  interval_cases i <;> simp [sh, shufSel, permSrc, shufList, show (128#8).msb = true by decide,
    show (4#8).msb = false by decide, show (8#8).msb = false by decide, show (12#8).msb = false by decide]

/-- Lane order of the 32 x int32 shuffle packing. -/
theorem comb32S_byte {c : Nat → BitVec 256} {e : Nat → Bool}
    (h : ∀ t, t < 4 → IsSel 32 (c t) (BitVec.allOnes 32) (fun d => e (8 * t + d))) {i : Nat} (hi : i < 32) :
    lane 8 (comb32S (c 0) (c 1) (c 2) (c 3)) i = boolByte (e i) := by
  have hs : ∀ t, t < 4 → IsSel 8 (shuffle8 (c t) (setEpi8 (shufList t))) 0xFF (sh e t) :=
    fun t ht => shuffle_sel (shufList t) (narrow8 (h t ht))
  have hp := permute_sel (((hs 0 (by decide)).or (hs 1 (by decide))).or ((hs 2 (by decide)).or (hs 3 (by decide))))
  have hq := hp i (by omega)
  rw [show (fun i => (fun d => (fun d => sh e 0 d || sh e 1 d) d || (fun d => sh e 2 d || sh e 3 d) d)
    (4 * permSrc (i / 4) + i % 4)) i = e i from int32SIdx e hi _ rfl] at hq
  have hd : comb32S (c 0) (c 1) (c 2) (c 3) = permute32
    ((shuffle8 (c 0) (setEpi8 (shufList 0)) ||| shuffle8 (c 1) (setEpi8 (shufList 1))) |||
     (shuffle8 (c 2) (setEpi8 (shufList 2)) ||| shuffle8 (c 3) (setEpi8 (shufList 3)))) g_permute &&& g_ones 256 := rfl
  rw [hd, lane_and, g_ones, lane_set1 _ (by omega), hq]
  exact byte_and_one _ (by decide) _

/-- The index list of `g_shuffle64_spec`. -/
def spec64 : List Nat := [0x80,0x80,0x80,0x80,0x80,0x80,0x80,0x80,0x80,12,0x80,8,0x80,4,0x80,0,
  0x80,0x80,0x80,0x80,0x80,0x80,0x80,0x80,0x80,12,0x80,8,0x80,4,0x80,0]

/-- Selection after packs32, shuffle and permute of two 4 x int64 masks. -/
def half64 (a b : Nat → Bool) (i : Nat) : Bool :=
  shufSel spec64 (fun d => (fun j => if j % 8 < 4 then a ((4 * (j / 8) + j % 8) / 2)
    else b ((4 * (j / 8) + (j % 8 - 4)) / 2)) (d / 2)) (4 * permSrc (i / 4) + i % 4)

theorem half64_sel {x y : BitVec 256} {a b : Nat → Bool} (hx : IsSel 64 x (BitVec.allOnes 64) a)
    (hy : IsSel 64 y (BitVec.allOnes 64) b) :
    IsSel 8 (permute32 (shuffle8 (packs32 x y) g_shuffle64_spec) g_permute) 0xFF (half64 a b) := by
  have h1 := IsSel.narrow (v := 32) (c := 2) (by decide) hx rfl (by decide)
  have h2 := IsSel.narrow (v := 32) (c := 2) (by decide) hy rfl (by decide)
  have h3 := IsSel.packs32 (by decide) h1 h2
  have h4 := IsSel.narrow (v := 8) (c := 2) (by decide) h3 rfl (by decide)
  exact permute_sel (shuffle_sel _ h4)

theorem half64_odd (a b : Nat → Bool) (j : Nat) (hj : j < 16) : half64 a b (2 * j + 1) = false := by
  interval_cases j <;> rfl

theorem half64_even (a b : Nat → Bool) (j : Nat) (hj : j < 8) :
    half64 a b (2 * j) = if j < 4 then a j else b (j - 4) := by
  interval_cases j <;> rfl

/-- Lane order of the 16 x int64 packing (low 128 bits are stored). -/
theorem comb64_byte {c : Nat → BitVec 256} {e : Nat → Bool}
    (h : ∀ t, t < 4 → IsSel 64 (c t) (BitVec.allOnes 64) (fun d => e (4 * t + d))) {i : Nat} (hi : i < 16) :
    lane 8 (comb64 (c 0) (c 1) (c 2) (c 3)) i = boolByte (e i) := by
  have widen : ∀ {x : BitVec 256} {a b : Nat → Bool}, IsSel 8 x 0xFF (half64 a b) →
      IsSel 16 x 0x00FF (fun j => half64 a b (2 * j)) := by
    intro x a b hx
    intro j hj
    rw [lane16, hx _ (by omega), hx _ (by omega), half64_odd a b j (by omega)]
    show _ = if half64 a b (2 * j) then _ else _
    cases half64 a b (2 * j) <;> rfl
  have h1 := widen (half64_sel (h 0 (by decide)) (h 1 (by decide)))
  have h2 := widen (half64_sel (h 2 (by decide)) (h 3 (by decide)))
  have h3 := IsSel.packs16 (by decide) h1 h2
  rw [comb64, lane_and, g_ones, lane_set1 _ (by omega), h3 i (by omega), byte_and_one _ (by decide)]
  congr 1
  simp only [Nat.div_eq_of_lt hi, Nat.mod_eq_of_lt hi]
  by_cases h8 : i < 8
  · rw [if_pos h8, half64_even _ _ _ (by omega)]
    split
    · congr 1; omega
    · congr 1; omega
  · rw [if_neg h8, half64_even _ _ _ (by omega)]
    split
    · congr 1; omega
    · congr 1; omega

/-- Lane order of the 16 x int16 packing. -/
theorem comb16_byte {m : BitVec 256} {e : Nat → Bool} (h : IsSel 16 m 1 e) {i : Nat} (hi : i < 16) :
    lane 8 (comb16 m) i = boolByte (e i) := by
  have h3 := IsSel.packs16 (by decide) h (IsSel.dupHigh h)
  rw [comb16, lane_extract128 _ _ hi, h3 _ (by omega)]
  simp only [show 16 * 0 + i = i by omega, Nat.div_eq_of_lt hi, Nat.mod_eq_of_lt hi]
  by_cases h8 : i < 8
  · simp only [if_pos h8, show 8 * 0 + i = i by omega]; rfl
  · simp only [if_neg h8, show 8 * 0 + (i - 8) < 8 by omega, if_true, show 8 + (8 * 0 + (i - 8)) = i by omega]; rfl

/-- Selection of the first packing step of `CompareDouble`. -/
def dbl (e : Nat → Bool) (j : Nat) : Bool := if j % 16 < 8 then
  (fun j => if j % 8 < 4 then e (0 + (4 * (j / 8) + j % 8) / 2) else e (2 + (4 * (j / 8) + (j % 8 - 4)) / 2)) (8 * (j / 16) + j % 16)
  else (fun j => if j % 8 < 4 then e (4 + (4 * (j / 8) + j % 8) / 2) else e (6 + (4 * (j / 8) + (j % 8 - 4)) / 2)) (8 * (j / 16) + (j % 16 - 8))

theorem dbl_eq (e : Nat → Bool) {j : Nat} (hj : j < 16) : dbl e j = e (j / 2) := by
  interval_cases j <;> rfl

/-- Lane order of the 8 x double packing. -/
theorem combDouble_byte {c : Nat → BitVec 128} {e : Nat → Bool}
    (h : ∀ t, t < 4 → IsSel 64 (c t) (BitVec.allOnes 64) (fun d => e (2 * t + d))) {i : Nat} (hi : i < 8) :
    lane 8 (combDouble (c 0) (c 1) (c 2) (c 3)) i = boolByte (e i) := by
  have n := fun t (ht : t < 4) => IsSel.narrow (v := 32) (c := 2) (by decide) (h t ht) rfl (by decide)
  have h1 : IsSel 8 (packs16 (packs32 (c 0) (c 1)) (packs32 (c 2) (c 3))) 0xFF (dbl e) :=
    IsSel.packs16 (by decide) (IsSel.packs32 (by decide) (n 0 (by decide)) (n 1 (by decide)))
      (IsSel.packs32 (by decide) (n 2 (by decide)) (n 3 (by decide)))
  have h2 := h1.widenBoth (fun j hj => by rw [dbl_eq e (by omega), dbl_eq e (by omega)]; congr 1; omega)
  have h3 := IsSel.packs16 (by decide) h2 h2
  rw [combDouble, lane_and, g_ones, lane_set1 _ (by omega), h3 i (by omega), byte_and_one _ (by decide)]
  congr 1
  simp only [show i % 16 < 8 by omega, if_true]
  rw [dbl_eq e (by omega)]
  congr 1
  omega

theorem lut64_byte (m : BitVec 8) {j : Nat} (hj : j < 8) : lane 8 (lut64 m) j = boolByte (m.getLsbD j) := by
  rw [lut64, lane_ofLanes _ (by omega)]; rfl

theorem lut64Inverse_byte (m : BitVec 8) {j : Nat} (hj : j < 8) :
    lane 8 (lut64Inverse m) j = boolByte (!m.getLsbD j) := by
  have hc : ∀ {j : Nat}, j < 8 → lane 8 (0x0101010101010101#64) j = 1 := by decide
  rw [lut64Inverse, lane_xor, lut64_byte m hj, hc hj]
  cases m.getLsbD j <;> rfl

theorem lut32_byte (m : BitVec 4) {j : Nat} (hj : j < 4) : lane 8 (lut32 m) j = boolByte (m.getLsbD j) := by
  rw [lut32, lane_ofLanes _ (by omega)]; rfl

end Pnumpy.Compare
