import Verif.Model.Strides
import Mathlib.Tactic.Ring
import Mathlib.Tactic.ByContra
/-
C41: array length and flat strides.
-/
namespace Pnumpy.Props
open Pnumpy.Spec Pnumpy.Strides

/-- C41: the element count is the product of the dimensions (1 for a 0-d array). -/
theorem C41_length (dims : List Nat) : calcArrayLength dims = count dims := by
  have gen : ∀ (l : List Nat) (a : Nat), l.foldl (fun length d => length * d) a = a * count l := by
    intro l
    induction l with
    | nil => intro a; simp [count]
    | cons d t ih => intro a; rw [List.foldl_cons, ih, count, Nat.mul_assoc]
  unfold calcArrayLength
  rw [gen, Nat.one_mul]

/-- Every position below the element count is the C position of exactly one index tuple: the
specification of C order is sensible. -/
theorem C41_positions (dims : List Nat) (p : Nat) (hp : p < count dims) : ∃ idx, inBounds dims idx ∧ posC dims idx = p := by
  induction dims generalizing p with
  | nil => simp only [count] at hp; exact ⟨[], trivial, by simp [posC]; omega⟩
  | cons d t ih =>
    simp only [count] at hp
    have hpos : 0 < count t := by
      rcases Nat.eq_zero_or_pos (count t) with h | h
      · rw [h] at hp; omega
      · exact h
    obtain ⟨idx, h1, h2⟩ := ih (p % count t) (Nat.mod_lt _ hpos)
    refine ⟨p / count t :: idx, ⟨(Nat.div_lt_iff_lt_mul hpos).2 hp, h1⟩, ?_⟩
    simp only [posC, h2]
    rw [Nat.mul_comm]; exact Nat.div_add_mod p (count t)

/-- Case: the 5th of 2 × 3 elements. -/
example : ∃ idx, inBounds [2, 3] idx ∧ posC [2, 3] idx = 4 := C41_positions [2, 3] 4 (by decide)

private theorem posC_lt (dims idx : List Nat) (h : inBounds dims idx) : posC dims idx < count dims := by
  induction dims generalizing idx with
  | nil => cases idx <;> simp_all [posC, count, inBounds]
  | cons d t ih =>
    cases idx with
    | nil => simp [inBounds] at h
    | cons i is =>
      have h1 := ih is h.2
      have h2 := h.1
      simp only [posC, count]
      calc i * count t + posC t is < i * count t + count t := by omega
        _ = (i + 1) * count t := by rw [Nat.succ_mul]
        _ ≤ d * count t := Nat.mul_le_mul_right _ h2

theorem C41_positions_unique (dims i j : List Nat) (hi : inBounds dims i) (hj : inBounds dims j) (h : posC dims i = posC dims j) : i = j := by
  induction dims generalizing i j with
  | nil => cases i <;> cases j <;> simp_all [inBounds]
  | cons d t ih =>
    cases i with
    | nil => simp [inBounds] at hi
    | cons a is =>
      cases j with
      | nil => simp [inBounds] at hj
      | cons b js =>
        simp only [posC] at h
        have h1 := posC_lt t is hi.2
        have h2 := posC_lt t js hj.2
        have hpos : 0 < count t := by omega
        have e1 : (a * count t + posC t is) / count t = a := by
          rw [Nat.add_comm, Nat.add_mul_div_right _ _ hpos, Nat.div_eq_of_lt h1, Nat.zero_add]
        have e2 : (b * count t + posC t js) / count t = b := by
          rw [Nat.add_comm, Nat.add_mul_div_right _ _ hpos, Nat.div_eq_of_lt h2, Nat.zero_add]
        have hab : a = b := by rw [← e1, ← e2, h]
        subst hab
        rw [ih is js hi.2 hj.2 (by omega)]

/-- Case: an index of a 2 × 3 array at position 4 is (1, 1). -/
example (i : List Nat) (hi : inBounds [2, 3] i) (h : posC [2, 3] i = posC [2, 3] [1, 1]) : i = [1, 1] :=
  C41_positions_unique [2, 3] i [1, 1] hi ⟨by decide, by decide, trivial⟩ h

private theorem flatC (c : Int) (dims : List Nat) (strides : List Int) (hl : strides.length = dims.length)
    (h : ∀ j, j < dims.length → strides.getD j 0 = c * (count (dims.drop (j + 1)) : Nat)) (idx : List Nat) (hi : inBounds dims idx) :
    offset strides idx = c * (posC dims idx : Nat) := by
  induction dims generalizing strides idx with
  | nil => cases strides <;> cases idx <;> simp_all [offset, posC]
  | cons d t ih =>
    cases strides with
    | nil => simp at hl
    | cons s ss =>
      cases idx with
      | nil => simp [inBounds] at hi
      | cons i is =>
        have h0 := h 0 (by simp)
        simp only [List.getD_cons_zero, List.drop_succ_cons, List.drop_zero] at h0
        have hr := ih ss (by simpa using hl) (fun j hj => by
          have := h (j + 1) (by simpa using hj)
          simpa using this) is hi.2
        simp only [offset, posC, h0, hr]
        push_cast
        ring

private theorem flatF (c : Int) (dims : List Nat) (strides : List Int) (hl : strides.length = dims.length)
    (h : ∀ j, j < dims.length → strides.getD j 0 = c * (count (dims.take j) : Nat)) (idx : List Nat) (hi : inBounds dims idx) :
    offset strides idx = c * (posF dims idx : Nat) := by
  induction dims generalizing strides idx c with
  | nil => cases strides <;> cases idx <;> simp_all [offset, posF]
  | cons d t ih =>
    cases strides with
    | nil => simp at hl
    | cons s ss =>
      cases idx with
      | nil => simp [inBounds] at hi
      | cons i is =>
        have h0 := h 0 (by simp)
        simp [count] at h0
        have hr := ih (c * d) ss (by simpa using hl) (fun j hj => by
          have := h (j + 1) (by simpa using hj)
          simp only [List.getD_cons_succ, List.take_succ_cons, count] at this
          rw [this]; push_cast; ring) is hi.2
        simp only [offset, posF, h0, hr]
        push_cast
        ring

private theorem count_drop (dims : List Nat) (k : Nat) (hk : k < dims.length) : count (dims.drop k) = dims.getD k 0 * count (dims.drop (k + 1)) := by
  induction dims generalizing k with
  | nil => simp at hk
  | cons d t ih =>
    cases k with
    | zero => simp [count]
    | succ k => simpa using ih k (by simpa using hk)

private theorem count_take (dims : List Nat) (k : Nat) (hk : k < dims.length) : count (dims.take (k + 1)) = count (dims.take k) * dims.getD k 0 := by
  induction dims generalizing k with
  | nil => simp at hk
  | cons d t ih =>
    cases k with
    | zero => simp [count]
    | succ k =>
      have := ih k (by simpa using hk)
      simp [count] at this ⊢
      rw [this, Nat.mul_assoc]

private theorem rowWalk_zero (dims : List Nat) (strides : List Int) (c : Int) (k : Nat) (hk : k < dims.length)
    (h : rowWalk dims strides k (c * (count (dims.drop (k + 1)) : Nat)) = 0) :
    ∀ j, j < k → strides.getD j 0 = c * (count (dims.drop (j + 1)) : Nat) := by
  induction k with
  | zero => intro j hj; omega
  | succ k ih =>
    simp only [rowWalk] at h
    have he : c * (count (dims.drop (k + 1 + 1)) : Nat) * (dims.getD (k + 1) 0 : Nat) = c * (count (dims.drop (k + 1)) : Nat) := by
      rw [count_drop dims (k + 1) hk]; push_cast; ring
    rw [he] at h
    split at h
    · omega
    · rename_i hne
      intro j hj
      rcases Nat.lt_or_ge j k with hj' | hj'
      · exact ih (by omega) h j hj'
      · have : j = k := by omega
        subst this
        exact Decidable.not_not.1 hne

private theorem rowWalk_conv (dims : List Nat) (strides : List Int) (c : Int) (k : Nat) (hk : k < dims.length)
    (h : ∀ j, j < k → strides.getD j 0 = c * (count (dims.drop (j + 1)) : Nat)) :
    rowWalk dims strides k (c * (count (dims.drop (k + 1)) : Nat)) = 0 := by
  induction k with
  | zero => rfl
  | succ k ih =>
    simp only [rowWalk]
    have he : c * (count (dims.drop (k + 1 + 1)) : Nat) * (dims.getD (k + 1) 0 : Nat) = c * (count (dims.drop (k + 1)) : Nat) := by
      rw [count_drop dims (k + 1) hk]; push_cast; ring
    rw [he, if_neg (by rw [h k (by omega)]; simp)]
    exact ih (by omega) (fun j hj => h j (by omega))

private theorem colWalk_full (dims : List Nat) (strides : List Int) (c : Int) (left k : Nat) (hk : k + left < dims.length)
    (h : colWalk dims strides left k (c * (count (dims.take k) : Nat)) = k + left) :
    ∀ j, k < j → j ≤ k + left → strides.getD j 0 = c * (count (dims.take j) : Nat) := by
  induction left generalizing k with
  | zero => intro j h1 h2; omega
  | succ left ih =>
    simp only [colWalk] at h
    have he : c * (count (dims.take k) : Nat) * (dims.getD k 0 : Nat) = c * (count (dims.take (k + 1)) : Nat) := by
      rw [count_take dims k (by omega)]; push_cast; ring
    rw [he] at h
    split at h
    · omega
    · rename_i hne
      intro j h1 h2
      rcases Nat.lt_or_ge (k + 1) j with hj | hj
      · exact ih (k + 1) (by omega) (by omega) j hj (by omega)
      · have : j = k + 1 := by omega
        subst this
        exact Decidable.not_not.1 hne

private theorem colWalk_le (dims : List Nat) (strides : List Int) (left k : Nat) (cur : Int) : colWalk dims strides left k cur ≤ k + left := by
  induction left generalizing k cur with
  | zero => simp [colWalk]
  | succ left ih => simp only [colWalk]; split; omega; have := ih (k + 1) (cur * (dims.getD k 0 : Nat)); omega

/-- C41, what holds of every array whose last stride is the smaller one (row major) and of 0-d and 1-d
arrays: if the classification says that one loop can process all data, the element at C position `p` is
at `p` times the reported stride, for every index tuple. -/
theorem C41_row_major_partial (itemsize : Int) (dims : List Nat) (strides : List Int) (hl : strides.length = dims.length) (stride : Int)
    (hres : getStridesAndContig itemsize dims strides = (0, stride))
    (hrow : 1 < dims.length → (strides.getD (dims.length - 1) 0).natAbs < (strides.getD 0 0).natAbs)
    (idx : List Nat) (hi : inBounds dims idx) : offset strides idx = stride * (posC dims idx : Nat) := by
  unfold getStridesAndContig at hres
  simp only at hres
  split at hres
  · have : dims = [] := List.length_eq_zero_iff.1 (by assumption)
    subst this
    cases strides <;> cases idx <;> simp_all [offset, posC, inBounds]
  · split at hres
    · injection hres with _ hs
      refine flatC stride dims strides hl (fun j hj => ?_) idx hi
      have : j = 0 := by omega
      subst this
      have hd : dims.drop 1 = [] := List.drop_eq_nil_of_le (by omega)
      rw [← hs, hd]; simp [count]
    · rename_i h0 h1
      have hlt := hrow (by omega)
      rw [if_neg (by intro e; rw [e] at hlt; omega), if_pos hlt] at hres
      injection hres with hd hs
      have hd : rowWalk dims strides (dims.length - 1) (strides.getD (dims.length - 1) 0) = 0 := by omega
      have hdrop : dims.drop (dims.length - 1 + 1) = [] := List.drop_eq_nil_of_le (by omega)
      have hlast : strides.getD (dims.length - 1) 0 = stride * (count (dims.drop (dims.length - 1 + 1)) : Nat) := by
        rw [hdrop, hs]; simp [count]
      rw [hlast] at hd
      have hall := rowWalk_zero dims strides stride (dims.length - 1) (by omega) hd
      refine flatC stride dims strides hl (fun j hj => ?_) idx hi
      rcases Nat.lt_or_ge j (dims.length - 1) with hj' | hj'
      · exact hall j hj'
      · have : j = dims.length - 1 := by omega
        subst this
        exact hlast

/-- C41: an array whose last stride is larger is accepted exactly as a Fortran-ordered one: the reported
stride walks the elements in Fortran order. -/
theorem C41_col_major_partial (itemsize : Int) (dims : List Nat) (strides : List Int) (hl : strides.length = dims.length) (stride : Int)
    (hres : getStridesAndContig itemsize dims strides = (0, stride)) (hnd : 1 < dims.length)
    (hcol : (strides.getD 0 0).natAbs < (strides.getD (dims.length - 1) 0).natAbs)
    (idx : List Nat) (hi : inBounds dims idx) : offset strides idx = stride * (posF dims idx : Nat) := by
  unfold getStridesAndContig at hres
  simp only at hres
  rw [if_neg (by omega), if_neg (by omega), if_neg (by intro e; rw [e] at hcol; omega), if_neg (by omega)] at hres
  injection hres with hd hs
  have hle := colWalk_le dims strides (dims.length - 1) 0 (strides.getD 0 0)
  have hd : colWalk dims strides (dims.length - 1) 0 (strides.getD 0 0) = 0 + (dims.length - 1) := by omega
  have h0 : strides.getD 0 0 = stride * (count (dims.take 0) : Nat) := by rw [hs]; simp [count]
  rw [h0] at hd
  have hall := colWalk_full dims strides stride (dims.length - 1) 0 (by omega) hd
  refine flatF stride dims strides hl (fun j hj => ?_) idx hi
  cases j with
  | zero => exact h0
  | succ j => exact hall (j + 1) (by omega) (by omega)

private theorem count_pos (dims : List Nat) (h : ∀ d ∈ dims, 0 < d) : 0 < count dims := by
  induction dims with
  | nil => simp [count]
  | cons d t ih => simp only [count]; exact Nat.mul_pos (h d (by simp)) (ih (fun x hx => h x (by simp [hx])))

/-- C41, completeness: every nonempty array laid out in C order with element distance `c` is recognised,
with stride `c`. -/
theorem C41_contiguous_recognised (itemsize c : Int) (hc : c ≠ 0) (dims : List Nat) (strides : List Int) (_hl : strides.length = dims.length)
    (hpos : ∀ d ∈ dims, 0 < d) (hnd : 0 < dims.length)
    (h : ∀ j, j < dims.length → strides.getD j 0 = c * (count (dims.drop (j + 1)) : Nat)) :
    getStridesAndContig itemsize dims strides = (0, c) := by
  unfold getStridesAndContig
  simp only
  rw [if_neg (by omega)]
  have h0 := h 0 hnd
  have hdrop : dims.drop (dims.length - 1 + 1) = [] := List.drop_eq_nil_of_le (by omega)
  have hlast := h (dims.length - 1) (by omega)
  have hlast' : strides.getD (dims.length - 1) 0 = c := by rw [hlast, hdrop]; simp [count]
  split
  · have : dims.drop 1 = [] := List.drop_eq_nil_of_le (by omega)
    rw [h0, this]; simp [count]
  · rename_i hn1
    split
    · rename_i he; rw [← he, hlast']
    · rename_i hne
      have hcp : 0 < count (dims.drop 1) := count_pos _ (fun d hd => hpos d (List.mem_of_mem_drop hd))
      have h2 : 1 < count (dims.drop 1) := by
        rcases Nat.lt_or_ge 1 (count (dims.drop 1)) with h' | h'
        · exact h'
        · exfalso
          apply hne
          rw [hlast', h0, show count (dims.drop (0 + 1)) = 1 by simpa using (by omega : count (dims.drop 1) = 1)]; simp
      rw [if_pos]
      · rw [hlast]
        have := rowWalk_conv dims strides c (dims.length - 1) (by omega) (fun j hj => h j (by omega))
        rw [this, ← hlast, hlast']; rfl
      · rw [hlast', h0, Int.natAbs_mul, Int.natAbs_natCast]
        have : 0 < c.natAbs := Int.natAbs_pos.2 hc
        calc c.natAbs = c.natAbs * 1 := by omega
          _ < c.natAbs * count (dims.drop (0 + 1)) := Nat.mul_lt_mul_of_pos_left h2 this

/-- A C-ordered 2×3 array of doubles meets the hypotheses. -/
example : getStridesAndContig 8 [2, 3] [24, 8] = (0, 8) ∧ ((8 : Int)).natAbs < ((24 : Int)).natAbs ∧ inBounds [2, 3] [1, 2] ∧
    offset [24, 8] [1, 2] = 8 * (posC [2, 3] [1, 2] : Nat) := by
  refine ⟨by decide, by decide, ⟨by decide, by decide, trivial⟩, by decide⟩

/-- A Fortran-ordered one is classified 0 as well and walked in the other order. -/
example : getStridesAndContig 8 [2, 3] [8, 16] = (0, 8) := by decide

/-- C41 is false for Fortran order: every 2-D Fortran-ordered array with at least 2 rows and 2 columns is
reported as "one loop", but position 1 in C order is not the second element of that loop. -/
theorem C41_fortran_violated (itemsize c : Int) (hc : 0 < c) (r k : Nat) (hr : 2 ≤ r) (hk : 2 ≤ k) :
    getStridesAndContig itemsize [r, k] [c, c * r] = (0, c) ∧
      inBounds [r, k] [0, 1] ∧ posC [r, k] [0, 1] = 1 ∧ offset [c, c * r] [0, 1] ≠ c * 1 := by
  have hgt : c < c * r := by
    calc c = c * 1 := by ring
      _ < c * r := Int.mul_lt_mul_of_pos_left (by omega) hc
  refine ⟨?_, ⟨by omega, by omega, trivial⟩, by simp [posC, count], ?_⟩
  · unfold getStridesAndContig
    simp only [List.length_cons, List.length_nil, List.getD_cons_zero, List.getD_cons_succ]
    rw [if_neg (by omega), if_neg (by omega), if_neg (by omega), if_neg (by omega)]
    simp [colWalk]
  · simp [offset]; omega

/-- C41 is false when the first and last stride agree: a broadcast array of shape (2, 3, 2) with strides
(0, 8, 0) is reported as one loop of stride 0, which never leaves the first element. -/
theorem C41_equal_strides_violated :
    getStridesAndContig 8 [2, 3, 2] [0, 8, 0] = (0, 0) ∧ inBounds [2, 3, 2] [0, 1, 0] ∧
      offset [0, 8, 0] [0, 1, 0] ≠ 0 * (posC [2, 3, 2] [0, 1, 0] : Nat) := by
  refine ⟨by decide, ⟨by decide, by decide, by decide, trivial⟩, by decide⟩

/-- Case: a packed 2 × 3 array of doubles. -/
example : offset [24, 8] [1, 2] = 8 * (posC [2, 3] [1, 2] : Nat) :=
  C41_row_major_partial 8 [2, 3] [24, 8] rfl 8 (by decide) (by decide) [1, 2] ⟨by decide, by decide, trivial⟩

private theorem zeros (dims : List Nat) (hpos : ∀ d ∈ dims, 0 < d) (strides : List Int) (hl : strides.length = dims.length) :
    ∃ idx, inBounds dims idx ∧ offset strides idx = 0 ∧ posC dims idx = 0 := by
  induction dims generalizing strides with
  | nil =>
    cases strides with
    | nil => exact ⟨[], trivial, rfl, rfl⟩
    | cons s ss => simp at hl
  | cons d t ih =>
    cases strides with
    | nil => simp at hl
    | cons s ss =>
      obtain ⟨idx, h1, h2, h3⟩ := ih (fun x hx => hpos x (by simp [hx])) ss (by simpa using hl)
      exact ⟨0 :: idx, ⟨hpos d (by simp), h1⟩, by simp [offset, h2], by simp [posC, h3]⟩

private theorem second_along (dims : List Nat) (hpos : ∀ d ∈ dims, 0 < d) (strides : List Int) (hl : strides.length = dims.length)
    (j : Nat) (hj : j < dims.length) (h2 : dims.getD j 0 ≠ 1) :
    ∃ idx, inBounds dims idx ∧ offset strides idx = strides.getD j 0 ∧ posC dims idx = count (dims.drop (j + 1)) := by
  induction dims generalizing strides j with
  | nil => simp at hj
  | cons d t ih =>
    cases strides with
    | nil => simp at hl
    | cons s ss =>
      cases j with
      | zero =>
        obtain ⟨idx, z1, z2, z3⟩ := zeros t (fun x hx => hpos x (by simp [hx])) ss (by simpa using hl)
        have hd := hpos d (by simp)
        simp only [List.getD_cons_zero] at h2
        exact ⟨1 :: idx, ⟨by omega, z1⟩, by simp [offset, z2], by simp [posC, z3]⟩
      | succ j =>
        obtain ⟨idx, z1, z2, z3⟩ := ih (fun x hx => hpos x (by simp [hx])) ss (by simpa using hl) j (by simpa using hj) (by simpa using h2)
        exact ⟨0 :: idx, ⟨hpos d (by simp), z1⟩, by simp [offset, z2], by simp [posC, z3]⟩

private theorem flat_iff (c : Int) (dims : List Nat) (hpos : ∀ d ∈ dims, 0 < d) (strides : List Int) (hl : strides.length = dims.length) :
    (∀ idx, inBounds dims idx → offset strides idx = c * (posC dims idx : Nat)) ↔
      ∀ j, j < dims.length → dims.getD j 0 = 1 ∨ strides.getD j 0 = c * (count (dims.drop (j + 1)) : Nat) := by
  constructor
  · intro h j hj
    by_cases h2 : dims.getD j 0 = 1
    · exact Or.inl h2
    · obtain ⟨idx, a1, a2, a3⟩ := second_along dims hpos strides hl j hj h2
      have := h idx a1
      rw [a2, a3] at this
      exact Or.inr this
  · intro h
    induction dims generalizing strides with
    | nil => intro idx hi; cases strides <;> cases idx <;> simp_all [offset, posC]
    | cons d t ih =>
      intro idx hi
      cases strides with
      | nil => simp at hl
      | cons s ss =>
        cases idx with
        | nil => simp [inBounds] at hi
        | cons i is =>
          have h0 := h 0 (by simp)
          simp only [List.getD_cons_zero, List.drop_succ_cons, List.drop_zero] at h0
          have hr := ih (fun x hx => hpos x (by simp [hx])) ss (by simpa using hl) (fun j hj => by
            have := h (j + 1) (by simpa using hj)
            simpa using this) is hi.2
          rcases h0 with h0 | h0
          · have : i = 0 := by have := hi.1; omega
            subst this
            simp only [offset, posC, hr]
            push_cast
            ring
          · simp only [offset, posC, h0, hr]
            push_cast
            ring

private theorem count_split (dims : List Nat) (k : Nat) : count dims = count (dims.take k) * count (dims.drop k) := by
  induction dims generalizing k with
  | nil => simp [count]
  | cons d t ih =>
    cases k with
    | zero => simp [count]
    | succ k =>
      have := ih k
      simp only [count, List.take_succ_cons, List.drop_succ_cons, Nat.mul_assoc]
      rw [← this]

private theorem take_le (dims : List Nat) (hpos : ∀ d ∈ dims, 0 < d) : ∀ (k m : Nat), count (dims.take k) ≤ count (dims.take (k + m)) := by
  intro k m
  have hd := count_split (dims.take (k + m)) k
  rw [List.take_take, Nat.min_eq_left (by omega)] at hd
  rw [hd]
  exact Nat.le_mul_of_pos_right _ (count_pos _ fun d h => hpos d (List.mem_of_mem_take (List.mem_of_mem_drop h)))

private theorem drop_le (dims : List Nat) (hpos : ∀ d ∈ dims, 0 < d) (k m : Nat) : count (dims.drop (k + m)) ≤ count (dims.drop k) := by
  have hd := count_split (dims.drop k) m
  rw [List.drop_drop] at hd
  rw [hd]
  exact Nat.le_mul_of_pos_left _ (count_pos _ fun d h => hpos d (List.mem_of_mem_drop (List.mem_of_mem_take h)))

private theorem take_ones (dims : List Nat) (j : Nat) (hj : j ≤ dims.length) (h : ∀ i, i < j → dims.getD i 0 = 1) : count (dims.take j) = 1 := by
  induction j with
  | zero => simp [count]
  | succ j ih => rw [count_take dims j (by omega), ih (by omega) (fun i hi => h i (by omega)), h j (by omega)]

private theorem drop_ones (dims : List Nat) : ∀ m j : Nat, j + m = dims.length → (∀ i, j ≤ i → i < dims.length → dims.getD i 0 = 1) → count (dims.drop j) = 1 := by
  intro m
  induction m with
  | zero => intro j hj _; rw [List.drop_eq_nil_of_le (by omega)]; rfl
  | succ m ih => intro j hj h; rw [count_drop dims j (by omega), h j (Nat.le_refl _) (by omega), ih (j + 1) (by omega) (fun i h1 h2 => h i (by omega) h2)]

/-- **C41 (part)**, exactly when the classification is right: for every shape of positive dimensions and all strides, if one loop with stride `stride` is reported,
then reading at that stride visits the elements in C order if and only if there is at most one dimension, or the first stride is the greater one, or the
last one is and at most one dimension is longer than 1, or they are equal and every dimension longer than 1 has the stride of C order. -/
theorem C41_reported_iff_partial (itemsize : Int) (dims : List Nat) (strides : List Int) (hl : strides.length = dims.length)
    (hpos : ∀ d ∈ dims, 0 < d) (stride : Int) (hres : getStridesAndContig itemsize dims strides = (0, stride)) :
    let first := strides.getD 0 0
    let last := strides.getD (dims.length - 1) 0
    (∀ idx, inBounds dims idx → offset strides idx = stride * (posC dims idx : Nat)) ↔
      dims.length ≤ 1 ∨ last.natAbs < first.natAbs ∨
      (first.natAbs < last.natAbs ∧ ∀ j k, j < k → k < dims.length → dims.getD j 0 = 1 ∨ dims.getD k 0 = 1) ∨
      (first = last ∧ ∀ j, j < dims.length → dims.getD j 0 = 1 ∨ strides.getD j 0 = stride * (count (dims.drop (j + 1)) : Nat)) := by
  intro first last
  rcases Nat.lt_or_ge 1 dims.length with hnd | hnd
  swap
  · exact iff_of_true (C41_row_major_partial itemsize dims strides hl stride hres (fun h => by omega)) (Or.inl hnd)
  rcases Nat.lt_trichotomy last.natAbs first.natAbs with hlt | heq | hgt
  · exact iff_of_true (C41_row_major_partial itemsize dims strides hl stride hres (fun _ => hlt)) (Or.inr (Or.inl hlt))
  · have hfl : first = last := by
      by_contra hne
      have hneg : last = -first := by omega
      have hf0 : first ≠ 0 := by omega
      unfold getStridesAndContig at hres
      simp only at hres
      rw [if_neg (by omega), if_neg (by omega), if_neg (fun h => hne h.symm), if_neg (by show ¬ last.natAbs < first.natAbs; omega)] at hres
      injection hres with hd hs
      have hle := colWalk_le dims strides (dims.length - 1) 0 (strides.getD 0 0)
      have hd : colWalk dims strides (dims.length - 1) 0 (strides.getD 0 0) = 0 + (dims.length - 1) := by omega
      have h0 : strides.getD 0 0 = stride * (count (dims.take 0) : Nat) := by rw [hs]; simp [count]
      rw [h0] at hd
      have := colWalk_full dims strides stride (dims.length - 1) 0 (by omega) hd (dims.length - 1) (by omega) (by omega)
      have hp := count_pos (dims.take (dims.length - 1)) (fun d h => hpos d (List.mem_of_mem_take h))
      have e1 : last = first * (count (dims.take (dims.length - 1)) : Nat) := by rw [show first = stride from hs]; exact this
      have e2 : first * ((count (dims.take (dims.length - 1)) : Int) + 1) = 0 := by rw [Int.mul_add, ← e1, hneg]; omega
      rcases Int.mul_eq_zero.1 e2 with h | h
      · exact hf0 h
      · omega
    refine (flat_iff stride dims hpos strides hl).trans ⟨fun h => Or.inr (Or.inr (Or.inr ⟨hfl, h⟩)), fun h => ?_⟩
    rcases h with h | h | h | h
    · omega
    · omega
    · omega
    · exact h.2
  · have hcol : ∀ j, j < dims.length → strides.getD j 0 = stride * (count (dims.take j) : Nat) := by
      unfold getStridesAndContig at hres
      simp only at hres
      rw [if_neg (by omega), if_neg (by omega), if_neg (by show last ≠ first; intro e; rw [e] at hgt; omega), if_neg (by show ¬ last.natAbs < first.natAbs; omega)] at hres
      injection hres with hd hs
      have hle := colWalk_le dims strides (dims.length - 1) 0 (strides.getD 0 0)
      have hd : colWalk dims strides (dims.length - 1) 0 (strides.getD 0 0) = 0 + (dims.length - 1) := by omega
      have h0 : strides.getD 0 0 = stride * (count (dims.take 0) : Nat) := by rw [hs]; simp [count]
      rw [h0] at hd
      have hall := colWalk_full dims strides stride (dims.length - 1) 0 (by omega) hd
      intro j hj
      cases j with
      | zero => exact h0
      | succ j => exact hall (j + 1) (by omega) (by omega)
    have hs0 : stride ≠ 0 := by
      rintro rfl
      have := hcol (dims.length - 1) (by omega)
      rw [Int.zero_mul] at this
      have e : last = 0 := this
      rw [e] at hgt
      simp at hgt
    have key : ∀ j, j < dims.length → (strides.getD j 0 = stride * (count (dims.drop (j + 1)) : Nat) ↔ count (dims.take j) = count (dims.drop (j + 1))) := by
      intro j hj
      rw [hcol j hj]
      exact ⟨fun h => by exact_mod_cast Int.eq_of_mul_eq_mul_left hs0 h, fun h => by rw [h]⟩
    rw [flat_iff stride dims hpos strides hl]
    constructor
    · intro h
      refine Or.inr (Or.inr (Or.inl ⟨hgt, fun j k hjk hk => ?_⟩))
      rcases h j (by omega) with h1 | h1
      · exact Or.inl h1
      rcases h k hk with h2 | h2
      · exact Or.inr h2
      by_contra hno
      rw [not_or] at hno
      have h1 := (key j (by omega)).1 h1
      have h2 := (key k hk).1 h2
      have pj := hpos _ (show dims.getD j 0 ∈ dims by rw [List.getD_eq_getElem?_getD, List.getElem?_eq_getElem (by omega)]; exact List.getElem_mem _)
      have t1 := count_take dims j (by omega)
      have t2 := take_le dims hpos (j + 1) (k - (j + 1))
      rw [show j + 1 + (k - (j + 1)) = k by omega] at t2
      have t3 := drop_le dims hpos (j + 1) (k + 1 - (j + 1))
      rw [show j + 1 + (k + 1 - (j + 1)) = k + 1 by omega] at t3
      have hp := count_pos (dims.take j) (fun d h => hpos d (List.mem_of_mem_take h))
      have : 2 * count (dims.take j) ≤ count (dims.take (j + 1)) := by
        rw [t1, Nat.mul_comm]; exact Nat.mul_le_mul_left _ (by omega)
      omega
    · intro h j hj
      have h : ∀ j k, j < k → k < dims.length → dims.getD j 0 = 1 ∨ dims.getD k 0 = 1 := by
        rcases h with h | h | h | h
        · omega
        · omega
        · exact h.2
        · exact absurd h.1 (fun e => by rw [e] at hgt; omega)
      by_cases h1 : dims.getD j 0 = 1
      · exact Or.inl h1
      · refine Or.inr ((key j hj).2 ?_)
        rw [take_ones dims j (by omega) (fun i hi => (h i j hi hj).resolve_right h1),
          drop_ones dims (dims.length - (j + 1)) (j + 1) (by omega) (fun i h2 h3 => (h j i (by omega) h3).resolve_left h1)]

/-- Cases: a 3 × 1 array in Fortran order is right; a 2 × 3 one is not. -/
example : ∀ idx, inBounds [3, 1] idx → offset [8, 24] idx = 8 * (posC [3, 1] idx : Nat) :=
  (C41_reported_iff_partial 8 [3, 1] [8, 24] rfl (by decide) 8 (by decide)).2 (Or.inr (Or.inr (Or.inl ⟨by decide, fun j k h1 h2 => by
    obtain ⟨rfl, rfl⟩ : j = 0 ∧ k = 1 := by simp at h2; omega
    decide⟩)))

example : ¬ ∀ idx, inBounds [2, 3] idx → offset [8, 16] idx = 8 * (posC [2, 3] idx : Nat) := fun h => by
  rcases (C41_reported_iff_partial 8 [2, 3] [8, 16] rfl (by decide) 8 (by decide)).1 h with h | h | h | h
  · revert h; decide
  · revert h; decide
  · rcases h.2 0 1 (by decide) (by decide) with h | h <;> revert h <;> decide
  · exact absurd h.1 (by decide)

end Pnumpy.Props
