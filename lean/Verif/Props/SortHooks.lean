import Verif.Model.SortHooks
import Verif.Props.SortApi
import Verif.Props.LexEntry
/-
Property theorems C67-C70: np.argsort, np.sort and np.lexsort with pnumpy's hooks installed.
-/
namespace Pnumpy.Props
open Spec Pnumpy.Sort Pnumpy.ParSort Pnumpy.SortApi Pnumpy.Lex Pnumpy.SortHooks

/-! ### What the hook sees is the line -/

theorem bigEndian_last (m : Int → BitVec 8) : ∀ (k : Nat) (p : Int), bigEndian m p (k + 1) = bigEndian m p k * 256 + (m (p + k)).toNat := by
  intro k
  induction k with
  | zero => intro p; simp [bigEndian]
  | succ k ih =>
    intro p
    show (m p).toNat * 256 ^ (k + 1) + bigEndian m (p + 1) (k + 1) = ((m p).toNat * 256 ^ k + bigEndian m (p + 1) k) * 256 + _
    rw [ih, show p + 1 + (k : Int) = p + (k + 1 : Nat) by push_cast; omega, pow_succ]
    ring

theorem le_of_be (m m' : Int → BitVec 8) : ∀ (k : Nat) (q p : Int), (∀ j : Nat, j < k → m (q + j) = m' (p + ((k : Int) - 1 - j))) →
    littleEndian m q k = bigEndian m' p k := by
  intro k
  induction k with
  | zero => intro q p _; rfl
  | succ k ih =>
    intro q p h
    rw [bigEndian_last]
    show (m q).toNat + 256 * littleEndian m (q + 1) k = _
    have h0 := h 0 (by omega)
    rw [ih (q + 1) p (fun j hj => by
      have := h (j + 1) (by omega)
      rw [show q + 1 + (j : Int) = q + (j + 1 : Nat) by push_cast; omega, this]
      congr 1; push_cast; omega)]
    rw [show q = q + ((0 : Nat) : Int) by simp, h0, show p + (((k + 1 : Nat) : Int) - 1 - (0 : Nat)) = p + k by push_cast; omega]
    ring

theorem le_of_le (m m' : Int → BitVec 8) : ∀ (k : Nat) (q p : Int), (∀ j : Nat, j < k → m (q + j) = m' (p + j)) →
    littleEndian m q k = littleEndian m' p k := by
  intro k
  induction k with
  | zero => intro q p _; rfl
  | succ k ih =>
    intro q p h
    show (m q).toNat + 256 * littleEndian m (q + 1) k = (m' p).toNat + 256 * littleEndian m' (p + 1) k
    rw [ih (q + 1) (p + 1) (fun j hj => by
      have := h (j + 1) (by omega)
      rw [show q + 1 + (j : Int) = q + (j + 1 : Nat) by push_cast; omega, this]
      congr 1; push_cast; omega)]
    have h0 := h 0 (by omega)
    simp only [Nat.cast_zero, Int.add_zero] at h0
    rw [h0]

theorem laneData_at (aligned : Bool) (a : Arr) (p s : Int) (i : Nat) :
    littleEndian (laneData aligned a p s) ((a.itemsize : Int) * i) a.itemsize =
      (if a.swapped then bigEndian a.mem else littleEndian a.mem) (p + s * i) a.itemsize := by
  have hd : ∀ j : Nat, j < a.itemsize → ((a.itemsize : Int) * i + j) / a.itemsize = i ∧ ((a.itemsize : Int) * i + j) % a.itemsize = j := by
    intro j hj
    constructor
    · rw [Int.mul_add_ediv_left _ _ (by omega), Int.ediv_eq_zero_of_lt (by omega) (by omega)]; omega
    · rw [Int.mul_add_emod_self_left]; exact Int.emod_eq_of_lt (by omega) (by omega)
  unfold laneData
  by_cases hc : needcopy aligned a s = true
  · rw [if_pos hc]
    cases hsw : a.swapped with
    | false =>
      rw [if_neg (by decide)]
      refine le_of_le _ _ _ _ _ fun j hj => ?_
      obtain ⟨h1, h2⟩ := hd j hj
      simp only [laneBuffer, hsw, h1, h2, Bool.false_eq_true, if_false]
    | true =>
      rw [if_pos rfl]
      refine le_of_be _ _ _ _ _ fun j hj => ?_
      obtain ⟨h1, h2⟩ := hd j hj
      simp only [laneBuffer, hsw, h1, h2, if_true]
  · rw [if_neg hc]
    simp only [needcopy, Bool.or_eq_true, not_or, decide_eq_true_eq, not_not] at hc
    obtain ⟨⟨_, hsw⟩, hs⟩ := hc
    rw [if_neg hsw, hs]
    exact le_of_le _ _ _ _ _ fun j hj => by congr 1; omega

theorem lane_elems {a : Arr} {t : DT} (ht : a.HasType t) (aligned : Bool) (p s : Int) (n : Nat) :
    ((List.range n).map fun (i : Nat) => BitVec.ofNat t.bits (littleEndian (laneData aligned a p s) ((t.bits / 8 : Nat) * i) (t.bits / 8))) =
      a.lane t p s n := by
  unfold Arr.lane
  refine List.map_congr_left fun i _ => ?_
  have h := laneData_at aligned a p s i
  rw [ht.2.2] at h
  rw [h]

theorem lane_column {a : Arr} {t : DT} (ht : a.HasType t) (aligned : Bool) (p s : Int) (n : Nat) :
    columnWith (littleEndian (laneData aligned a p s)) (.num t) 0 a.itemsize a.itemsize n = .num t (a.lane t p s n) := by
  rw [← lane_elems ht aligned p s n]
  unfold columnWith
  simp only [ht.2.2, Int.zero_add]

theorem lane_length (a : Arr) (t : DT) (p s : Int) (n : Nat) : (a.lane t p s n).length = n := by simp [Arr.lane]

/-- Every hooked type is sorted as what it is, with the item size it has. -/
theorem stub_type {a : Arr} {t : DT} (ht : a.HasType t) {atype : Int} (h : stubAtype a.dtype = some atype) :
    sortIndexType atype = some (.num t) ∧ sortType atype = some t ∧ atypeSize atype = t.bits / 8 := by
  obtain ⟨h0, h1, _⟩ := ht
  unfold stubAtype at h
  split at h
  · next hm =>
    simp only [hookedDtypes, List.mem_cons, List.not_mem_nil, or_false] at hm
    generalize a.dtype = d at *
    rcases hm with rfl | rfl | rfl | rfl | rfl | rfl | rfl | rfl | rfl | rfl | rfl | rfl | rfl <;>
      (cases h; cases h1; decide)
  · cases h

/-! ### np.argsort -/

/-- numpy's own argsort functions: they sort, and the stable kind is stable. -/
structure NumpyArgsorts (np : Kind → (Nat → Nat → Prop) → List Nat → List Nat → Prop) : Prop where
  sorts : ∀ k b ix0 ix, np k b ix0 ix → ix.Perm ix0 ∧ Ascending b ix
  stable : ∀ b ix0 ix, np .merge b ix0 ix → IsStableReorder b ix0 ix

theorem pass_sorts {t : DT} {v : List (BitVec t.bits)} {n : Nat} (hl : v.length = n) (hn : n < 2 ^ 63) (hb : ProperBools t v) {k : Kind}
    (hk : k ≠ .merge ∨ ∀ x ∈ v, value t x ≠ .nan) {ix : List Nat} (hp : Pass k (.num t v) (List.range n) ix) :
    IsArgsort (before t) (keyOf v) n ix := by
  subst hl
  cases hp with
  | serial c ix0 ix' w hw h =>
    obtain ⟨b, h1, h2⟩ := C20_argsort_partial t k v w (by simpa using hw) hn hb (hk.imp id Or.inr)
    rw [show argsortSerial (opsArg t) k v (List.range v.length) w = some ix from h] at h1
    cases h1; exact h2
  | threaded t v ix0 w s hl hw h h8 =>
    exact C22_parallel_argsort_partial t k v w (by simpa using hw) (by simpa using hl) hn hb hk s h h8

theorem pass_stable {t : DT} {v : List (BitVec t.bits)} {n : Nat} (hl : v.length = n) (hn : n < 2 ^ 63) (hb : ProperBools t v)
    (hk : ∀ x ∈ v, value t x ≠ .nan) {ix0 ix : List Nat} (h0 : ∀ i ∈ ix0, i < n) (hl0 : ix0.length < 2 ^ 63) (hp : Pass .merge (.num t v) ix0 ix) :
    IsStableReorder (Col.num t v).before ix0 ix := by
  subst hl
  exact SS_refines (c := .num t v) ⟨hb, hk⟩ h0 (pass_SS (c := .num t v) ⟨hb, hk⟩ h0 hl0 (fun h => absurd h id) hp)

theorem argStub_sorts {np} (hnp : NumpyArgsorts np) {e : Env} {a : Arr} {t : DT} (ht : a.HasType t) {k : Kind} {p s : Int} {n : Nat}
    (hn : n < 2 ^ 63) (hb : ProperBools t (a.lane t p s n)) (hk : k ≠ .merge ∨ ∀ x ∈ a.lane t p s n, value t x ≠ .nan) {ix : List Nat}
    (h : ArgLane np e a k p s n (List.range n) ix) : IsArgsort (before t) (keyOf (a.lane t p s n)) n ix := by
  obtain ⟨atype, ct, ha, hct, hs⟩ := h
  have hty := stub_type ht ha
  obtain rfl : ct = .num t := by rw [ht.2.1] at hct; exact (Option.some.inj hct).symm
  have hcore : ∀ ix, ArgStub np e.atop a.dtype atype (.num t) a.itemsize k (laneData e.aligned a p s) n false (List.range n) ix →
      IsArgsort (before t) (keyOf (a.lane t p s n)) n ix := by
    intro ix hs
    cases hs with
    | served h hc hp =>
      rw [hty.1] at hc; cases hc
      rw [lane_column ht] at hp
      exact pass_sorts (lane_length ..) hn hb hk hp
    | failed h hn =>
      rw [lane_column ht] at hn
      exact hnp.sorts _ _ _ _ hn
    | punted h hn =>
      rw [lane_column ht] at hn
      exact hnp.sorts _ _ _ _ hn
  cases hled : e.ledger with
  | false => rw [hled] at hs; exact hcore ix hs
  | true =>
    rw [hled] at hs
    cases hs with
    | ledgered h => exact hcore ix h

theorem argStub_stable {np} (hnp : NumpyArgsorts np) {e : Env} {a : Arr} {t : DT} (ht : a.HasType t) {p s : Int} {n : Nat}
    (hn : n < 2 ^ 63) (hb : ProperBools t (a.lane t p s n)) (hk : ∀ x ∈ a.lane t p s n, value t x ≠ .nan) {ix0 ix : List Nat}
    (h0 : ∀ i ∈ ix0, i < n) (hl0 : ix0.length < 2 ^ 63)
    (h : ArgLane np e a .merge p s n ix0 ix) : IsStableReorder (Col.num t (a.lane t p s n)).before ix0 ix := by
  obtain ⟨atype, ct, ha, hct, hs⟩ := h
  have hty := stub_type ht ha
  obtain rfl : ct = .num t := by rw [ht.2.1] at hct; exact (Option.some.inj hct).symm
  have hcore : ∀ ix, ArgStub np e.atop a.dtype atype (.num t) a.itemsize .merge (laneData e.aligned a p s) n false ix0 ix →
      IsStableReorder (Col.num t (a.lane t p s n)).before ix0 ix := by
    intro ix hs
    cases hs with
    | served h hc hp =>
      rw [hty.1] at hc; cases hc
      rw [lane_column ht] at hp
      exact pass_stable (lane_length ..) hn hb hk h0 hl0 hp
    | failed h hn =>
      rw [lane_column ht] at hn
      exact hnp.stable _ _ _ hn
    | punted h hn =>
      rw [lane_column ht] at hn
      exact hnp.stable _ _ _ hn
  cases hled : e.ledger with
  | false => rw [hled] at hs; exact hcore ix hs
  | true =>
    rw [hled] at hs
    cases hs with
    | ledgered h => exact hcore ix h

theorem isArgsort_trivial {α : Type} (b : α → α → Prop) (key : Nat → α) {n : Nat} (h : n < 2) : IsStableArgsort b key n (List.range n) := by
  refine ⟨List.Perm.refl _, ?_⟩
  rcases n with _ | _ | n
  · exact .nil
  · simp
  · omega

theorem stableArgsort_weaken {α : Type} {b : α → α → Prop} {key : Nat → α} {n : Nat} {ix : List Nat} (h : IsStableArgsort b key n ix) :
    IsArgsort b key n ix := ⟨h.1, h.2.imp fun h => h.1⟩

theorem stableArgsort_of {t : DT} {v : List (BitVec t.bits)} {n : Nat} {ix : List Nat}
    (h : IsStableReorder (Col.num t v).before (List.range n) ix) : IsStableArgsort (before t) (keyOf v) n ix :=
  ⟨h.1, h.2 (· < ·) List.pairwise_lt_range⟩

/-- General form of C67 and C68. -/
theorem argsort_hook {np} (hnp : NumpyArgsorts np) (e : Env) (a : Arr) (t : DT) (ht : a.HasType t) (k : Kind) (p s : Int) (n : Nat)
    (hn : n < 2 ^ 63) (hb : ProperBools t (a.lane t p s n)) (hk : k ≠ .merge ∨ ∀ x ∈ a.lane t p s n, value t x ≠ .nan)
    (ix : List Nat) (h : NpArgsort np e a k p s n ix) :
    IsArgsort (before t) (keyOf (a.lane t p s n)) n ix ∧ (k = .merge → IsStableArgsort (before t) (keyOf (a.lane t p s n)) n ix) := by
  unfold NpArgsort at h
  split at h
  · next h2 => subst h; exact ⟨stableArgsort_weaken (isArgsort_trivial _ _ h2), fun _ => isArgsort_trivial _ _ h2⟩
  · refine ⟨argStub_sorts hnp ht hn hb hk h, fun hm => ?_⟩
    subst hm
    exact stableArgsort_of (argStub_stable hnp ht hn hb (hk.resolve_left fun h => h rfl) (fun i hi => List.mem_range.1 hi) (by simpa using hn) h)

/-- The integer and boolean types. -/
def DT.Exact (t : DT) : Prop := t ≠ .f32 ∧ t ≠ .f64

theorem exact_not_nan {t : DT} (h : DT.Exact t) (x : BitVec t.bits) : value t x ≠ .nan := by
  cases t <;> first | exact absurd rfl h.1 | exact absurd rfl h.2 | exact (fun h => nomatch h)

/-- C67: np.argsort of booleans and integers with pnumpy's hooks installed. For every array (any shape, strides, alignment and
byte order), every line of it, every kind, with hooks enabled or not, ledger on or off, threads or not, whatever the
schedule, and also if pnumpy cannot allocate memory: the result is each of 0 .. n-1 once, along which the elements ascend;
with the stable kind equal elements keep their order. -/
theorem C67_np_argsort {np} (hnp : NumpyArgsorts np) (e : Env) (a : Arr) (t : DT) (ht : a.HasType t) (hx : DT.Exact t) (k : Kind)
    (p s : Int) (n : Nat) (hn : n < 2 ^ 63) (hb : ProperBools t (a.lane t p s n)) (ix : List Nat) (h : NpArgsort np e a k p s n ix) :
    IsArgsort (before t) (keyOf (a.lane t p s n)) n ix ∧ (k = .merge → IsStableArgsort (before t) (keyOf (a.lane t p s n)) n ix) :=
  argsort_hook hnp e a t ht k p s n hn hb (Or.inr fun x _ => exact_not_nan hx x) ix h

/-- C68 (partial: the stable kind only without NaN): np.argsort of float32 and float64 (and all other hooked types). -/
theorem C68_np_argsort_partial {np} (hnp : NumpyArgsorts np) (e : Env) (a : Arr) (t : DT) (ht : a.HasType t) (k : Kind) (p s : Int)
    (n : Nat) (hn : n < 2 ^ 63) (hb : ProperBools t (a.lane t p s n)) (hk : k ≠ .merge ∨ ∀ x ∈ a.lane t p s n, value t x ≠ .nan)
    (ix : List Nat) (h : NpArgsort np e a k p s n ix) :
    IsArgsort (before t) (keyOf (a.lane t p s n)) n ix ∧ (k = .merge → IsStableArgsort (before t) (keyOf (a.lane t p s n)) n ix) :=
  argsort_hook hnp e a t ht k p s n hn hb hk ix h

/-- Every type with elements as considered here is hooked. -/
theorem stub_exists {a : Arr} {t : DT} (ht : a.HasType t) :
    ∃ atype, stubAtype a.dtype = some atype ∧ a.dtype ≤ 19 ∧ a.dtype ≠ 17 ∧ (16 < t.bits → 4 < atype) := by
  obtain ⟨h0, h1, _⟩ := ht
  have hlt : a.dtype.toNat < 24 := by
    by_contra h
    unfold colType at h1
    rw [List.getD_eq_getElem?_getD, List.getElem?_eq_none (by simp; omega)] at h1
    cases h1
  generalize a.dtype = d at *
  have hd : d = (d.toNat : Int) := by omega
  rw [hd] at h1 ⊢
  generalize d.toNat = m at *
  clear hd h0
  rcases m with _ | _ | _ | _ | _ | _ | _ | _ | _ | _ | _ | _ | _ | _ | _ | _ | _ | _ | _ | _ | _ | _ | _ | _ | m <;>
    first
      | omega
      | (cases h1; exact ⟨_, rfl, by decide, by decide, by decide⟩)
      | (exact nomatch h1)

/-- pnumpy serves all hooked types itself, without numpy's functions, unless a stable argsort of 1- or 2-byte elements is asked
for: some run exists, whatever the settings of ledger and threads. -/
theorem C67_served (e : Env) (he : e.atop = true) (a : Arr) (t : DT) (ht : a.HasType t) (k : Kind) (hk : k ≠ .merge ∨ 16 < t.bits)
    (p s : Int) (n : Nat) (hn : n < 2 ^ 63) : ∃ ix, NpArgsort (fun _ _ _ _ => False) e a k p s n ix := by
  unfold NpArgsort
  by_cases h2 : n < 2
  · exact ⟨_, by rw [if_pos h2]⟩
  · simp only [if_neg h2]
    obtain ⟨atype, ha, h19, h17, h4⟩ := stub_exists ht
    have hsv : servedArg e.atop a.dtype atype k = true := by
      unfold servedArg
      simp only [he, h19, h17, Bool.true_and, decide_true, ne_eq, not_false_iff, Bool.or_eq_true, decide_eq_true_eq]
      exact hk.symm.imp h4 id
    obtain ⟨ix, h1, _⟩ := C20_argsort_permutation t k (a.lane t p s n) (List.replicate (n / 2) 0) (by rw [lane_length]; simp)
      (by rw [lane_length]; exact hn)
    have hp : Pass k (columnWith (littleEndian (laneData e.aligned a p s)) (.num t) 0 a.itemsize a.itemsize n) (List.range n) ix := by
      rw [lane_column ht]
      refine .serial _ _ _ (List.replicate (n / 2) 0) (by simp) ?_
      rw [lane_length] at h1; exact h1
    refine ⟨ix, atype, .num t, ha, ht.2.1, ?_⟩
    have := ArgStub.served (np := fun _ _ _ _ => False) (ct := .num t) hsv (stub_type ht ha).1 hp
    cases e.ledger with
    | false => exact this
    | true => exact .ledgered this

/-- An array with the given elements, one after the other. -/
def arrayOf (dtype : Int) {b : Nat} (l : List (BitVec b)) : Arr :=
  { dims := [l.length], strides := [((b / 8 : Nat) : Int)], itemsize := b / 8, dtype := dtype, swapped := false,
    mem := fun p => BitVec.ofNat 8 ((l[(p / (b / 8 : Nat)).toNat]?.getD 0).toNat / 256 ^ (p % (b / 8 : Nat)).toNat) }

theorem lane_arrayOf (dtype : Int) (t : DT) (l : List (BitVec t.bits)) : (arrayOf dtype l).lane t 0 (t.bits / 8 : Nat) l.length = l := by
  have hbits : 256 ^ (t.bits / 8) = 2 ^ t.bits ∧ 0 < t.bits / 8 := by cases t <;> decide
  unfold Arr.lane
  apply List.ext_getElem (by simp)
  intro i h1 h2
  rw [List.getElem_map, List.getElem_range]
  show BitVec.ofNat t.bits (littleEndian (arrayOf dtype l).mem (0 + (t.bits / 8 : Nat) * (i : Int)) (t.bits / 8)) = l[i]
  rw [le_bytes _ l[i].toNat (t.bits / 8) 0 _ (fun j hj => by
    have e1 : ((t.bits / 8 : Nat) * (i : Int) + j) / (t.bits / 8 : Nat) = i := by
      rw [Int.mul_add_ediv_left _ _ (by omega), Int.ediv_eq_zero_of_lt (by omega) (by omega)]; omega
    have e2 : ((t.bits / 8 : Nat) * (i : Int) + j) % (t.bits / 8 : Nat) = j := by
      rw [Int.mul_add_emod_self_left]; exact Int.emod_eq_of_lt (by omega) (by omega)
    rw [Int.zero_add]
    simp only [arrayOf]
    rw [e1, e2]
    simp [h2])]
  rw [hbits.1, Nat.pow_zero, Nat.div_one, Nat.mod_eq_of_lt l[i].isLt]
  simp

/-- C68, violated: the stable np.argsort of 16 float64 numbers (0.0 seven times, NaN, 1.0 eight times), hooks enabled: whatever
the other settings, every run in which pnumpy gets its memory leaves NaN in the middle. -/
theorem C68_nan_violated (ledger aligned threads : Bool) :
    let a := arrayOf 12 nanKeys
    a.lane .f64 0 8 16 = nanKeys ∧
    (∃ ix, NpArgsort (fun _ _ _ _ => False) ⟨ledger, true, aligned, threads⟩ a .merge 0 8 16 ix) ∧
    ∀ ix, NpArgsort (fun _ _ _ _ => False) ⟨ledger, true, aligned, threads⟩ a .merge 0 8 16 ix →
      ¬ IsArgsort (before .f64) (keyOf nanKeys) 16 ix := by
  intro a
  have hl : a.lane .f64 0 8 16 = nanKeys := lane_arrayOf 12 .f64 nanKeys
  have ht : a.HasType .f64 := ⟨by decide, rfl, rfl⟩
  refine ⟨hl, C67_served _ rfl a .f64 ht .merge (Or.inr (by decide)) 0 8 16 (by decide), fun ix h => ?_⟩
  unfold NpArgsort at h
  rw [if_neg (by decide)] at h
  obtain ⟨atype, ct, ha, hct, hs⟩ := h
  have hty := stub_type ht ha
  have hcore : ∀ ix, ArgStub (fun _ _ _ _ => False) true a.dtype atype ct a.itemsize .merge (laneData aligned a 0 8) 16 false (List.range 16) ix →
      ¬ IsArgsort (before .f64) (keyOf nanKeys) 16 ix := by
    intro ix hs
    cases hs with
    | served h hc hp =>
      rw [hty.1] at hc; cases hc
      rw [lane_column ht, hl] at hp
      cases hp with
      | serial c ix0 ix' w hw h =>
        have h1 := merge_nan_run w (by simpa using hw)
        rw [show argsortSerial (opsArg .f64) .merge nanKeys (List.range 16) w = some ix from h] at h1
        cases h1
        intro h
        have h1 := (List.pairwise_iff_getElem.1 h.2) 7 8 (by decide) (by decide) (by decide)
        exact h1 ((ops_lt_iff .f64 _ _).1 (by decide))
      | threaded t v ix0 w s hl hw h h8 => exact absurd hl (by decide)
    | failed h hn => exact absurd hn id
    | punted h hn => exact absurd hn id
  cases ledger with
  | false => exact hcore ix hs
  | true =>
    cases hs with
    | ledgered h => exact hcore ix h

/-! ### np.lexsort -/

/-- A stable reordering by one key after a stable reordering by others: the new key decides first. -/
theorem stable_then {b1 b2 : Nat → Nat → Prop} {ix0 ix1 ix2 : List Nat} (h1 : IsStableReorder b1 ix0 ix1) (h2 : IsStableReorder b2 ix1 ix2) :
    IsStableReorder (fun i j => b2 i j ∨ (¬ b2 j i ∧ b1 i j)) ix0 ix2 := by
  refine ⟨h2.1.trans h1.1, fun R hR => (h2.2 _ (h1.2 R hR)).imp fun {i j} h => ⟨fun hx => ?_, fun hx => ?_⟩⟩
  · rcases hx with hx | ⟨hx, hk⟩
    · exact h.1 hx
    · exact (h.2 hx).1 hk
  · have h3 : ¬ b2 i j := fun h => hx (Or.inl h)
    exact (h.2 h3).2 fun hk => hx (Or.inr ⟨h.1, hk⟩)

/-- The order of a key. -/
def _root_.Pnumpy.SortHooks.LexKey.before (n : Nat) : LexKey → Nat → Nat → Prop
  | .hooked _ a p s => fun i j => ∃ t, a.HasType t ∧ Spec.before t (keyOf (a.lane t p s n) i) (keyOf (a.lane t p s n) j)
  | .other b => b

/-- A key without NaN; booleans stored as 0 or 1. -/
def _root_.Pnumpy.SortHooks.LexKey.NoNan (n : Nat) : LexKey → Prop
  | .hooked _ a p s => ∃ t, a.HasType t ∧ ProperBools t (a.lane t p s n) ∧ ∀ x ∈ a.lane t p s n, value t x ≠ .nan
  | .other _ => True

theorem hasType_unique {a : Arr} {t t' : DT} (h : a.HasType t) (h' : a.HasType t') : t = t' := by
  have h1 := h.2.1; rw [h'.2.1] at h1
  cases h1; rfl

theorem lexStep_stable {np} (hnp : NumpyArgsorts np) {n : Nat} (hn : n < 2 ^ 63) {key : LexKey} (hk : key.NoNan n) {ix0 ix : List Nat}
    (h0 : ∀ i ∈ ix0, i < n) (hl0 : ix0.length < 2 ^ 63) (h : LexStep np n key ix0 ix) : IsStableReorder (key.before n) ix0 ix := by
  cases key with
  | hooked e a p s =>
    obtain ⟨t, ht, hb, hx⟩ := hk
    have := argStub_stable hnp ht hn hb hx h0 hl0 h
    have e : (LexKey.hooked e a p s).before n = (Col.num t (a.lane t p s n)).before := by
      funext i j
      apply propext
      constructor
      · rintro ⟨t', ht', h⟩
        obtain rfl := hasType_unique ht ht'
        exact h
      · exact fun h => ⟨t, ht, h⟩
    rw [e]; exact this
  | other b => exact hnp.stable _ _ _ h

theorem lexSteps_stable {np} (hnp : NumpyArgsorts np) {n : Nat} (hn : n < 2 ^ 63) : ∀ {keys : List LexKey} {ix0 ix : List Nat},
    (∀ key ∈ keys, LexKey.NoNan n key) → (∀ i ∈ ix0, i < n) → ix0.length < 2 ^ 63 → LexSteps np n keys ix0 ix →
    IsStableReorder (RowBefore (keys.map (LexKey.before n))) ix0 ix := by
  intro keys
  induction keys with
  | nil =>
    intro ix0 ix _ _ _ h
    cases h
    exact ⟨List.Perm.refl _, fun R hR => hR.imp fun h => ⟨id, fun _ => h⟩⟩
  | cons key keys ih =>
    intro ix0 ix hk h0 hl0 h
    cases h with
    | cons h hs =>
      have h1 := lexStep_stable hnp hn (hk key (by simp)) h0 hl0 h
      have h2 := ih (fun k hk' => hk k (by simp [hk'])) (fun i hi => h0 i (h1.1.mem_iff.1 hi)) (by rw [h1.1.length_eq]; exact hl0) hs
      exact stable_then h1 h2

/-- C71 (partial: float keys without NaN): np.lexsort with the hooks installed, any number of keys of any types, any settings
(also changing between keys), any schedule: the result is each row once, sorted by the last key, rows equal there by the one
before it, and so on; rows equal in all keys keep their order. -/
theorem C71_np_lexsort_partial {np} (hnp : NumpyArgsorts np) (n : Nat) (hn : n < 2 ^ 63) (keys : List LexKey) (hk : ∀ key ∈ keys, LexKey.NoNan n key)
    (ix : List Nat) (h : NpLexsort np n keys ix) : IsStableArgsort (RowBefore (keys.map (LexKey.before n))) id n ix := by
  have := lexSteps_stable hnp hn hk (fun i hi => List.mem_range.1 hi) (by simpa using hn) h
  exact ⟨this.1, this.2 (· < ·) List.pairwise_lt_range⟩

/-- A key of booleans or integers, or of a type pnumpy does not hook. -/
def _root_.Pnumpy.SortHooks.LexKey.Exact (n : Nat) : LexKey → Prop
  | .hooked _ a p s => ∃ t, a.HasType t ∧ DT.Exact t ∧ ProperBools t (a.lane t p s n)
  | .other _ => True

/-- C70: np.lexsort with the hooks installed; no restriction is needed for keys of booleans and integers, and of types that are not hooked (strings, float16, ...). -/
theorem C70_np_lexsort_exact {np} (hnp : NumpyArgsorts np) (n : Nat) (hn : n < 2 ^ 63) (keys : List LexKey) (hk : ∀ key ∈ keys, LexKey.Exact n key)
    (ix : List Nat) (h : NpLexsort np n keys ix) : IsStableArgsort (RowBefore (keys.map (LexKey.before n))) id n ix := by
  refine C71_np_lexsort_partial hnp n hn keys (fun key hm => ?_) ix h
  have := hk key hm
  cases key with
  | hooked e a p s =>
    obtain ⟨t, h1, h2, h3⟩ := this
    exact ⟨t, h1, h3, fun x _ => exact_not_nan h2 x⟩
  | other b => trivial

/-! ### np.sort -/

/-- numpy's own sort functions sort. -/
def NumpySorts (t : DT) (np : Kind → List (BitVec t.bits) → List (BitVec t.bits) → Prop) : Prop :=
  ∀ k l r, np k l r → IsSortOf (before t) r l

theorem lane_oneDim {a : Arr} {p s : Int} {n : Nat} (h : a.IsLane p s n) (h1 : a.dims.length = 1) : p = 0 ∧ a.strides = [s] ∧ a.dims = [n] := by
  obtain ⟨hl, ax, hd, hs, c, hc, hc0, _, rfl⟩ := h
  obtain ⟨d, hd'⟩ := List.length_eq_one_iff.1 h1
  obtain ⟨s', hs'⟩ := List.length_eq_one_iff.1 (hl.trans h1)
  obtain ⟨c', hc'⟩ := List.length_eq_one_iff.1 (hc.trans h1)
  subst hc'
  rw [hd'] at hd; rw [hs'] at hs
  rcases ax with _ | ax
  · simp at hd hs hc0
    subst hd hs hc0
    simp [hd', hs']
  · simp at hd

theorem raw_lane {a : Arr} {t : DT} (ht : a.HasType t) (hsw : a.swapped = false) (n : Nat) :
    viewElems (rawAt a t) n a.itemsize = a.lane t 0 a.itemsize n := by
  unfold viewElems Arr.lane rawAt
  refine List.map_congr_left fun i _ => ?_
  rw [hsw, if_neg (by decide), Int.zero_add, Int.mul_comm]

theorem isSort_trivial {α : Type} (b : α → α → Prop) {l : List α} (h : l.length < 2) : IsSortOf b l l := by
  refine ⟨List.Perm.refl _, ?_⟩
  rcases l with _ | ⟨x, _ | ⟨y, l⟩⟩
  · exact .nil
  · exact List.pairwise_singleton _ _
  · simp at h; omega

/-- C69: np.sort / ndarray.sort with the hooks installed, for every array of a hooked type (any shape and strides), every line
along every axis, every kind, hooks enabled or not, ledger on or off, any schedule, also if pnumpy gets no memory for its
workspace: the line's elements, each as often as before, in ascending order, NaNs last. The array must be aligned and in
native byte order, or not contiguous 1-D (otherwise see C48 and C50). -/
theorem C69_np_sort {t : DT} {np} (hnp : NumpySorts t np) (e : Env) (a : Arr) (ht : a.HasType t) (k : Kind) (p s : Int) (n : Nat)
    (hlane : a.IsLane p s n) (hn : n < 2 ^ 63) (hok : a.dims.length ≠ 1 ∨ s ≠ a.itemsize ∨ (e.aligned = true ∧ a.swapped = false))
    (stride1 : Int) (r : List (BitVec t.bits)) (h : NpSortLane t np e a k p s n stride1 r) : IsSortOf (before t) r (a.lane t p s n) := by
  unfold NpSortLane at h
  split at h
  · next h2 => subst h; exact isSort_trivial _ (by rw [lane_length]; exact h2)
  obtain ⟨atype, ha, hs⟩ := h
  obtain ⟨_, hty, hsz⟩ := stub_type ht ha
  rw [lane_elems ht] at hs
  have hsv : servedSort e.atop a.dtype atype a.dims.length a.itemsize (a.strides.headD 0) k = true →
      p = 0 ∧ s = a.itemsize ∧ e.aligned = true ∧ a.swapped = false := by
    intro h
    simp only [servedSort, Bool.and_eq_true, decide_eq_true_eq] at h
    obtain ⟨⟨⟨⟨_, h1⟩, _⟩, h2⟩, h3⟩ := h
    obtain ⟨hp0, hs0, _⟩ := lane_oneDim hlane h1
    rw [hs0] at h3
    have h4 : s = a.itemsize := by rw [h2]; exact h3
    exact ⟨hp0, h4, (hok.resolve_left (fun h => h h1)).resolve_left (fun h => h h4)⟩
  have hcore : ∀ r, SortStub t np e a atype k (!needcopy e.aligned a s) n (a.strides.headD 0) stride1 false (a.lane t p s n) r →
      IsSortOf (before t) r (a.lane t p s n) := by
    intro r hs
    cases hs with
    | @served _ t' r h ht' hb hr =>
      rw [hty] at ht'; cases ht'
      obtain ⟨hp0, hs0, hal, hsw⟩ := hsv h
      have := sortRun_sound t k _ e.threads (rawAt a t) n hn stride1 a.itemsize r hr
      have hnc : needcopy e.aligned a s = false := by simp [needcopy, hal, hsw, hs0]
      rw [hnc] at this
      unfold sorted_elems at this
      rw [if_neg (by simp), raw_lane ht hsw] at this
      rw [hp0, hs0, show r.map (BitVec.cast hb) = r from (List.map_congr_left fun _ _ => rfl).trans (List.map_id r)]
      exact this
    | otherSize h ht' hb => rw [hty] at ht'; cases ht'; exact absurd rfl hb
    | failed h hn => exact hnp _ _ _ hn
    | failedCopy h hp hn =>
      obtain ⟨_, hs0, hal, hsw⟩ := hsv h
      exact absurd hp (by simp [needcopy, hal, hsw, hs0])
    | punted h hn => exact hnp _ _ _ hn
  cases hled : e.ledger with
  | false => rw [hled] at hs; exact hcore r hs
  | true =>
    rw [hled] at hs
    cases hs with
    | ledgered h => exact hcore r h

/-- pnumpy itself serves contiguous 1-D arrays (unless a stable sort of 1- or 2-byte elements is asked for). -/
theorem C69_served {t : DT} (e : Env) (he : e.atop = true) (a : Arr) (ht : a.HasType t) (k : Kind) (hk : k ≠ .merge ∨ 16 < t.bits) (n : Nat)
    (hd : a.dims = [n]) (hst : a.strides = [(a.itemsize : Int)]) (hn : n < 2 ^ 63) (stride1 : Int) :
    ∃ r, NpSortLane t (fun _ _ _ => False) e a k 0 a.itemsize n stride1 r := by
  unfold NpSortLane
  by_cases h2 : n < 2
  · exact ⟨_, by rw [if_pos h2]⟩
  · simp only [if_neg h2]
    obtain ⟨atype, ha, h19, h17, h4⟩ : ∃ atype, stubAtype a.dtype = some atype ∧ a.dtype ≤ 19 ∧ a.dtype ≠ 17 ∧ (16 < t.bits → 4 < atype) :=
      stub_exists ht
    obtain ⟨_, hty, hsz⟩ := stub_type ht ha
    have hsv : servedSort e.atop a.dtype atype a.dims.length a.itemsize (a.strides.headD 0) k = true := by
      unfold servedSort
      rw [hst, hd, hsz, ht.2.2]
      simp only [he, h19, h17, Bool.true_and, decide_true, ne_eq, not_false_iff, Bool.or_eq_true, decide_eq_true_eq, Bool.and_true,
        List.headD_cons, List.length_cons, List.length_nil, Nat.zero_add]
      exact hk.symm.imp h4 id
    obtain ⟨r, hr⟩ := sortRun_exists t k (!needcopy e.aligned a a.itemsize) e.threads (rawAt a t) n hn stride1 a.itemsize
    refine ⟨r.map (BitVec.cast rfl), atype, ha, ?_⟩
    have := fun l => SortStub.served (np := fun _ _ _ => False) (t := t) (l := l) hsv hty rfl hr
    cases e.ledger with
    | false => exact this _
    | true => exact .ledgered (this _)

/-! ### With pnumpy disabled -/

/-- C36 for np.argsort: with pnumpy disabled, a line of at least two elements is argsorted by numpy's own function of that kind,
whatever that function does. -/
theorem C36_argsort_disabled {t : DT} {np} (e : Env) (he : e.atop = false) (a : Arr) (ht : a.HasType t) (k : Kind) (p s : Int) (n : Nat)
    (h2 : 2 ≤ n) (ix : List Nat) :
    NpArgsort np e a k p s n ix ↔ np k (fun i j => before t (keyOf (a.lane t p s n) i) (keyOf (a.lane t p s n) j)) (List.range n) ix := by
  have hb : (Col.num t (a.lane t p s n)).before = fun i j => before t (keyOf (a.lane t p s n) i) (keyOf (a.lane t p s n) j) := rfl
  have hs : ∀ atype, servedArg e.atop a.dtype atype k = false := fun atype => by simp [servedArg, he]
  unfold NpArgsort
  rw [if_neg (by omega)]
  constructor
  · rintro ⟨atype, ct, ha, hct, h⟩
    have hct' : ct = .num t := (Option.some.inj (hct.symm.trans ht.2.1))
    subst hct'
    have hcore : ∀ ix, ArgStub np e.atop a.dtype atype (.num t) a.itemsize k (laneData e.aligned a p s) n false (List.range n) ix →
        np k (Col.num t (a.lane t p s n)).before (List.range n) ix := by
      intro ix h
      cases h with
      | served h => rw [hs] at h; cases h
      | failed h => rw [hs] at h; cases h
      | punted h hn => rw [lane_column ht] at hn; exact hn
    rw [← hb]
    cases hled : e.ledger with
    | false => rw [hled] at h; exact hcore ix h
    | true =>
      rw [hled] at h
      cases h with
      | ledgered h => exact hcore ix h
  · intro h
    obtain ⟨atype, ha, _⟩ := stub_exists ht
    have := ArgStub.punted (np := np) (ct := .num t) (itemsize := a.itemsize) (buf := laneData e.aligned a p s) (n := n) (ix0 := List.range n) (ix := ix)
      (hs atype) (by rw [lane_column ht]; exact h)
    refine ⟨atype, .num t, ha, ht.2.1, ?_⟩
    cases e.ledger with
    | false => exact this
    | true => exact .ledgered this

/-- C36 for np.sort: with pnumpy disabled, a line of at least two elements is sorted by numpy's own function of that kind. -/
theorem C36_sort_disabled {t : DT} {np} (e : Env) (he : e.atop = false) (a : Arr) (ht : a.HasType t) (k : Kind) (p s : Int) (n : Nat)
    (h2 : 2 ≤ n) (stride1 : Int) (r : List (BitVec t.bits)) : NpSortLane t np e a k p s n stride1 r ↔ np k (a.lane t p s n) r := by
  have hs : ∀ atype, servedSort e.atop a.dtype atype a.dims.length a.itemsize (a.strides.headD 0) k = false := fun atype => by simp [servedSort, he]
  unfold NpSortLane
  rw [if_neg (by omega)]
  constructor
  · rintro ⟨atype, ha, h⟩
    rw [lane_elems ht] at h
    have hcore : ∀ r, SortStub t np e a atype k (!needcopy e.aligned a s) n (a.strides.headD 0) stride1 false (a.lane t p s n) r →
        np k (a.lane t p s n) r := by
      intro r h
      cases h with
      | served h => rw [hs] at h; cases h
      | otherSize h => rw [hs] at h; cases h
      | failed h => rw [hs] at h; cases h
      | failedCopy h => rw [hs] at h; cases h
      | punted h hn => exact hn
    cases hled : e.ledger with
    | false => rw [hled] at h; exact hcore r h
    | true =>
      rw [hled] at h
      cases h with
      | ledgered h => exact hcore r h
  · intro h
    obtain ⟨atype, ha, _⟩ := stub_exists ht
    refine ⟨atype, ha, ?_⟩
    rw [lane_elems ht]
    have := SortStub.punted (t := t) (np := np) (e := e) (a := a) (inPlace := !needcopy e.aligned a s) (n := n) (stride1 := stride1) (hs atype) h
    cases e.ledger with
    | false => exact this
    | true => exact .ledgered this

/-! ### Concrete cases -/

/-- numpy as hypothesised: a relation that satisfies the hypothesis and relates something to every input that can be sorted. -/
theorem numpyArgsorts_exists : NumpyArgsorts fun _ b ix0 ix => ix.Perm ix0 ∧ Ascending b ix ∧ IsStableReorder b ix0 ix :=
  ⟨fun _ _ _ _ h => ⟨h.1, h.2.1⟩, fun _ _ _ h => h.2.2⟩

theorem numpyArgsorts_nothing : NumpyArgsorts fun _ _ _ _ => False := ⟨fun _ _ _ _ h => h.elim, fun _ _ _ h => h.elim⟩

/-- A big-endian int32 array stored backwards: 3, 1, 2. -/
def backwards : Arr :=
  { dims := [3], strides := [-4], itemsize := 4, dtype := 5, swapped := true,
    mem := fun p => if p = 3 then 3 else if p = -1 then 1 else if p = -5 then 2 else 0 }

theorem backwards_lane : backwards.lane .i32 0 (-4) 3 = ([3#32, 1#32, 2#32] : List (BitVec 32)) := by rfl

example : ∃ ix, NpArgsort (fun _ _ _ _ => False) ⟨true, true, false, true⟩ backwards .merge 0 (-4) 3 ix ∧
    IsStableArgsort (before .i32) (keyOf (backwards.lane .i32 0 (-4) 3)) 3 ix := by
  have ht : backwards.HasType .i32 := ⟨by decide, rfl, rfl⟩
  obtain ⟨ix, h⟩ := C67_served ⟨true, true, false, true⟩ rfl backwards .i32 ht .merge (Or.inr (by decide)) 0 (-4) 3 (by decide)
  exact ⟨ix, h, (C67_np_argsort numpyArgsorts_nothing _ backwards .i32 ht ⟨by decide, by decide⟩ .merge 0 (-4) 3 (by decide)
    (fun h => by cases h) ix h).2 rfl⟩

/-- Two keys, the second an int32 array with hooks, the first of some other type. -/
example : ∃ ix, NpLexsort (fun _ b ix0 ix => ix.Perm ix0 ∧ Ascending b ix ∧ IsStableReorder b ix0 ix) 3
    [.other (fun _ _ => False), .hooked ⟨false, true, true, false⟩ backwards 0 (-4)] ix ∧
    IsStableArgsort (RowBefore [fun _ _ => False, (LexKey.hooked ⟨false, true, true, false⟩ backwards 0 (-4)).before 3]) id 3 ix := by
  have ht : backwards.HasType .i32 := ⟨by decide, rfl, rfl⟩
  obtain ⟨ix, h⟩ := C67_served ⟨false, true, true, false⟩ rfl backwards .i32 ht .merge (Or.inr (by decide)) 0 (-4) 3 (by decide)
  have hl : ArgLane (fun _ b ix0 ix => ix.Perm ix0 ∧ Ascending b ix ∧ IsStableReorder b ix0 ix) ⟨false, true, true, false⟩ backwards .merge 0 (-4) 3
      (List.range 3) ix := by
    unfold NpArgsort at h
    rw [if_neg (by decide)] at h
    obtain ⟨atype, ct, h1, h2, h3⟩ := h
    refine ⟨atype, ct, h1, h2, ?_⟩
    cases h3 with
    | served ha hb hc => exact .served ha hb hc
    | failed _ hn => exact hn.elim
    | punted _ hn => exact hn.elim
  have hr : NpLexsort (fun _ b ix0 ix => ix.Perm ix0 ∧ Ascending b ix ∧ IsStableReorder b ix0 ix) 3
      [.other (fun _ _ => False), .hooked ⟨false, true, true, false⟩ backwards 0 (-4)] ix :=
    .cons ⟨List.Perm.refl _, by unfold Ascending; decide, List.Perm.refl _, fun R h => h.imp fun h => ⟨id, fun _ => h⟩⟩ (.cons hl (.nil _))
  exact ⟨ix, hr, C70_np_lexsort_exact numpyArgsorts_exists 3 (by decide) _ (by
    intro key hk
    rcases List.mem_cons.1 hk with rfl | hk
    · trivial
    · rcases List.mem_cons.1 hk with rfl | hk
      · exact ⟨.i32, ht, ⟨by decide, by decide⟩, fun h => by cases h⟩
      · cases hk) ix hr⟩

/-- np.sort of the float32 array NaN, 1.0, -0.0, 0.0. -/
example : ∃ r, NpSortLane .f32 (fun _ _ _ => False) ⟨true, true, true, true⟩ (arrayOf 11 [0x7fc00000#32, 0x3f800000#32, 0x80000000#32, 0#32]) .heap 0 4 4 17 r ∧
    IsSortOf (before .f32) r ([0x7fc00000#32, 0x3f800000#32, 0x80000000#32, 0#32] : List (BitVec DT.f32.bits)) := by
  have ht : (arrayOf 11 [0x7fc00000#32, 0x3f800000#32, 0x80000000#32, 0#32]).HasType .f32 := ⟨by decide, rfl, rfl⟩
  obtain ⟨r, h⟩ := C69_served (t := .f32) ⟨true, true, true, true⟩ rfl _ ht .heap (Or.inl (by decide)) 4 rfl rfl (by decide) 17
  have := C69_np_sort (t := .f32) (fun _ _ _ h => h.elim) _ _ ht .heap 0 4 4 ⟨rfl, 0, rfl, rfl, [0], rfl, rfl, fun i x d hi hx hd => by
    rcases i with _ | i
    · exact absurd rfl hi
    · simp at hx, rfl⟩ (by decide) (Or.inr (Or.inr ⟨rfl, rfl⟩)) 17 r h
  rw [show (arrayOf 11 [0x7fc00000#32, 0x3f800000#32, 0x80000000#32, 0#32]).lane .f32 0 4 4 = _ from lane_arrayOf 11 .f32 _] at this
  exact ⟨r, h, this⟩

/-- Cases: the int32 array `backwards` with pnumpy disabled; the kinds quick and merge. -/
example {np} (ix : List Nat) := C36_argsort_disabled (t := .i32) (np := np) ⟨false, false, true, false⟩ rfl backwards ⟨by decide, rfl, rfl⟩ .quick 0 (-4) 3 (by decide) ix

example {np} (r : List (BitVec DT.i32.bits)) := C36_sort_disabled (t := .i32) (np := np) ⟨false, false, true, false⟩ rfl backwards ⟨by decide, rfl, rfl⟩ .quick 0 (-4) 3 (by decide) 4 r

example : ∃ ix, NpArgsort (fun _ _ _ _ => False) ⟨true, true, false, true⟩ backwards .quick 0 (-4) 3 ix ∧
    IsArgsort (before .i32) (keyOf (backwards.lane .i32 0 (-4) 3)) 3 ix := by
  have ht : backwards.HasType .i32 := ⟨by decide, rfl, rfl⟩
  obtain ⟨ix, h⟩ := C67_served ⟨true, true, false, true⟩ rfl backwards .i32 ht .quick (Or.inl (by decide)) 0 (-4) 3 (by decide)
  exact ⟨ix, h, (C68_np_argsort_partial numpyArgsorts_nothing _ backwards .i32 ht .quick 0 (-4) 3 (by decide) (fun h => by cases h) (Or.inl (by decide)) ix h).1⟩

end Pnumpy.Props
