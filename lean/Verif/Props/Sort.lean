import Verif.Proofs.SortTypes
import Verif.Proofs.ArgMergePerm
import Mathlib.Data.List.Permutation
/-
Property theorems C17-C21 and C46: sorting without threads.

`sortSerial` returns `some a'` only when every array and workspace access was inside the array resp. workspace
and the function returned, so `= some a'` is the "in bounds and terminates" part of each statement.
-/
namespace Pnumpy.Props
open Spec Pnumpy.Sort

/-- All three sort functions, applied to the middle of a bigger array: they return, touch only that part and
their workspace, and leave a sorted permutation (the merge sort: a stable one). -/
theorem sortFn_correct {α : Type} {o : Ops α} (ho : OpsOk o) (k : Kind) (A S B w : List α) (hw : w.length = S.length / 2)
    (hn : S.length < 2 ^ 63) :
    ∃ S', sortFn o k (A ++ S ++ B) A.length S.length w = some (A ++ S' ++ B) ∧
      S'.Perm S ∧ Asc o.lt S' ∧ (k = .merge → SS o.lt S' S) := by
  have hframe : ∀ a', Frame A.length (A.length + S.length) a' (A ++ S ++ B) → AscAt o.lt A.length (A.length + S.length) a' →
      ∃ S', a' = A ++ S' ++ B ∧ S'.Perm S ∧ Asc o.lt S' := by
    intro a' h1 h2
    obtain ⟨S', rfl, hp⟩ := h1.list
    exact ⟨S', rfl, hp, AscAt.list (A := A) (B := B) (by rw [hp.length_eq]; exact h2)⟩
  have hP : ∀ x ∈ A ++ S ++ B, (fun _ : α => True) x := fun _ _ => trivial
  cases k with
  | quick =>
    obtain ⟨a', h1, h2, h3⟩ := quicksort_ok (computes_direct o.lt) ho.swo hn (A ++ S ++ B) (start := A.length)
      (by simp) (allIn_of_all hP _ _)
    obtain ⟨S', rfl, hp, ha⟩ := hframe a' h2 h3
    exact ⟨S', h1, hp, ha, by simp⟩
  | heap =>
    obtain ⟨a', h1, h2, h3⟩ := heapsort_ok (computes_direct o.lt) ho.swo (base := A.length) (n := S.length) (A ++ S ++ B)
      (by simp) (allIn_of_all hP _ _)
    obtain ⟨S', rfl, hp, ha⟩ := hframe a' h2 h3
    exact ⟨S', h1, hp, ha, by simp⟩
  | merge =>
    obtain ⟨S', h1, h2⟩ := mergesort_ok ho A S B w hw
    exact ⟨S', h2, h1.perm, h1.asc, fun _ => h1⟩

/-- C17: sorting an array of any type with any kind returns, and the array then holds exactly the elements it
had. `w` is the arbitrary initial content of the workspace. -/
theorem C17_sort_permutation (t : DT) (k : Kind) (a w : List (BitVec t.bits)) (hw : w.length = a.length / 2)
    (hn : a.length < 2 ^ 63) : ∃ a', sortSerial (ops t) k a w = some a' ∧ a'.Perm a := by
  obtain ⟨S', h1, h2, _, _⟩ := sortFn_correct (opsOk t) k [] a [] w hw hn
  exact ⟨S', by simpa [sortSerial] using h1, h2⟩

/-- Case: three float64 with a NaN. -/
example (k : Kind) := C17_sort_permutation .f64 k [0x7ff8000000000000, 0x8000000000000000, 0#64] [5] rfl (by decide)

/-- C18: ... and is in ascending order, NaNs last. -/
theorem C18_sort_ascending (t : DT) (k : Kind) (a w : List (BitVec t.bits)) (hw : w.length = a.length / 2)
    (hn : a.length < 2 ^ 63) : ∃ a', sortSerial (ops t) k a w = some a' ∧ IsSortOf (before t) a' a := by
  obtain ⟨S', h1, h2, h3, _⟩ := sortFn_correct (opsOk t) k [] a [] w hw hn
  exact ⟨S', by simpa [sortSerial] using h1, h2, (ascending_iff (ops_lt_iff t) _).1 h3⟩

/-- C18, spelled out: of two positions, the left one holds the smaller-or-equal number, and once a NaN is met
only NaNs follow. -/
theorem C18_nan_last (t : DT) (k : Kind) (a w a' : List (BitVec t.bits)) (hw : w.length = a.length / 2)
    (hn : a.length < 2 ^ 63) (hr : sortSerial (ops t) k a w = some a') (i j : Nat) (hij : i < j) (hj : j < a'.length) :
    (value t a'[i] = .nan → value t a'[j] = .nan) ∧
      (value t a'[j] ≠ .nan → (value t a'[i]).lt (value t a'[j]) ∨ value t a'[i] = value t a'[j]) := by
  obtain ⟨b, h1, h2⟩ := C18_sort_ascending t k a w hw hn
  rw [hr] at h1
  obtain rfl := Option.some.inj h1
  have h := (List.pairwise_iff_getElem.1 h2.2) i j (by omega) hj hij
  unfold before at h
  revert h
  generalize value t a'[i] = x
  generalize value t a'[j] = y
  intro h
  cases x <;> cases y <;> simp [Value.lt] at h ⊢
  omega

/-- Case: the first and the last of three float64. -/
example (k : Kind) : ∃ a', sortSerial (ops .f64) k [0x7ff8000000000000, 0x8000000000000000, 0#64] [5] = some a' ∧
    ∃ h : 2 < a'.length, value .f64 (a'[0]'(by omega)) = .nan → value .f64 a'[2] = .nan := by
  obtain ⟨a', h, hp⟩ := C17_sort_permutation .f64 k [0x7ff8000000000000, 0x8000000000000000, 0#64] [5] rfl (by decide)
  have hl : 2 < a'.length := by rw [hp.length_eq]; decide
  exact ⟨a', h, hl, (C18_nan_last .f64 k _ _ a' rfl (by decide) h 0 2 (by decide) hl).1⟩

/-- C18: the merge sort moreover keeps the order of elements that compare equal but differ in their bits
(-0.0 and 0.0, different NaNs). -/
theorem C18_merge_stable (t : DT) (a w : List (BitVec t.bits)) (hw : w.length = a.length / 2)
    (hn : a.length < 2 ^ 63) : ∃ a', sortSerial (ops t) .merge a w = some a' ∧ IsStableSortOf (before t) a' a := by
  obtain ⟨S', h1, _, _, h4⟩ := sortFn_correct (opsOk t) .merge [] a [] w hw hn
  exact ⟨S', by simpa [sortSerial] using h1, (h4 rfl).stableSort (ops_lt_iff t)⟩

/-- C19: a sort of `S` that lies between other data `A` and `B` never touches that data, uses no more than its
`n / 2` elements of workspace and its 128-entry stack, and returns. -/
theorem C19_sort_stays_inside (t : DT) (k : Kind) (A S B w : List (BitVec t.bits)) (hw : w.length = S.length / 2)
    (hn : S.length < 2 ^ 63) :
    ∃ S', S'.length = S.length ∧ sortFn (ops t) k (A ++ S ++ B) A.length S.length w = some (A ++ S' ++ B) := by
  obtain ⟨S', h1, h2, _, _⟩ := sortFn_correct (opsOk t) k A S B w hw hn
  exact ⟨S', h2.length_eq, h1⟩

/-! ### argsort -/

/-- Key `i` of the array that is argsorted. -/
abbrev keyOf {t : DT} (v : List (BitVec t.bits)) (i : Nat) : BitVec t.bits := v[i]?.getD 0

theorem argsort_general {α : Type} [Inhabited α] {o : Ops α} (ho : OpsOk o) (k : Kind) (v : List α) (w : List Nat)
    (hw : w.length = v.length / 2) (hn : v.length < 2 ^ 63)
    (hk : k ≠ .merge ∨ v.length ≤ 15 ∨ ∀ x ∈ v, o.isNaN x = false) :
    ∃ ix, argsortSerial o k v (List.range v.length) w = some ix ∧ ix.Perm (List.range v.length) ∧
      Asc (keyLt o.lt v) ix ∧ (k = .merge → SS (keyLt o.lt v) ix (List.range v.length)) := by
  have hP : ∀ i ∈ List.range v.length, i < v.length := fun i hi => List.mem_range.1 hi
  have hframe : ∀ a', Frame 0 (0 + v.length) a' (List.range v.length) → AscAt (keyLt o.lt v) 0 (0 + v.length) a' →
      Asc (keyLt o.lt v) a' := by
    intro a' h1 h2
    refine AscAt.list (A := []) (S := a') (B := []) ?_
    rw [h1.len]
    simpa using h2
  cases k with
  | quick =>
    obtain ⟨a', h1, h2, h3⟩ := quicksort_ok (computes_indirect o.lt v) (keyLt_swo ho.swo v) hn (List.range v.length)
      (start := 0) (by simp) (allIn_of_all hP _ _)
    exact ⟨a', by simp [argsortSerial, argsortFn, h1], h2.perm, hframe a' h2 h3, by simp⟩
  | heap =>
    obtain ⟨a', h1, h2, h3⟩ := heapsort_ok (computes_indirect o.lt v) (keyLt_swo ho.swo v) (base := 0) (n := v.length)
      (List.range v.length) (by simp) (allIn_of_all hP _ _)
    exact ⟨a', by simp [argsortSerial, argsortFn, h1], h2.perm, hframe a' h2 h3, by simp⟩
  | merge =>
    suffices h : ∃ ix w', amergesort0 o v (List.range v.length) w 0 (0 + v.length) 0 = some (ix, w') ∧
        SS (keyLt o.lt v) ix (List.range v.length) by
      obtain ⟨ix, w', h1, h2⟩ := h
      simp only [Nat.zero_add] at h1
      exact ⟨ix, by simp [argsortSerial, argsortFn, h1], h2.perm, h2.asc, fun _ => h2⟩
    rcases hk with hk | hk | hk
    · exact absurd rfl hk
    · obtain ⟨S', h1, h2⟩ := ams0_short ho v [] (List.range v.length) [] w (by simpa using hk) hP
      exact ⟨S', w, by simpa using h2, h1⟩
    · obtain ⟨S', W', h1, h2, h3⟩ := (ams_all ho v v.length).1 [] (List.range v.length) [] [] w [] (by simp) (by omega)
        (fun i hi => ⟨v[i]'(hP i hi), List.getElem?_eq_getElem _, hk _ (List.getElem_mem _)⟩)
      exact ⟨S', W', by simpa using h3, h1⟩

/-- The order used by the indirect sorts is the order of the values. Booleans are compared as bytes, which is the
same thing when `True` is stored as 1. -/
theorem opsArg_lt_iff (t : DT) (x y : BitVec t.bits) (hx : t = .bool → x.toNat ≤ 1) (hy : t = .bool → y.toNat ≤ 1) :
    (opsArg t).lt x y = true ↔ before t x y := by
  cases t
  case bool =>
    have hb : ∀ z : BitVec 8, z.toNat ≤ 1 → z = 0 ∨ z = 1 := by
      intro z hz
      rcases Nat.le_one_iff_eq_zero_or_eq_one.1 hz with h | h
      · exact Or.inl (BitVec.eq_of_toNat_eq h)
      · exact Or.inr (BitVec.eq_of_toNat_eq h)
    have h1 := hb x (hx rfl)
    have h2 := hb y (hy rfl)
    show BitVec.ult (n := 8) x y = true ↔ _
    rcases h1 with rfl | rfl <;> rcases h2 with rfl | rfl
    · exact (by unfold before; decide : BitVec.ult 0#8 0#8 = true ↔ before .bool 0#8 0#8)
    · exact (by unfold before; decide : BitVec.ult 0#8 1#8 = true ↔ before .bool 0#8 1#8)
    · exact (by unfold before; decide : BitVec.ult 1#8 0#8 = true ↔ before .bool 1#8 0#8)
    · exact (by unfold before; decide : BitVec.ult 1#8 1#8 = true ↔ before .bool 1#8 1#8)
  all_goals exact ops_lt_iff _ x y

theorem opsArg_ok (t : DT) : OpsOk (opsArg t) := by
  cases t
  case bool => exact opsOk .u8
  all_goals exact opsOk _

theorem opsArg_isNaN (t : DT) (x : BitVec t.bits) : (opsArg t).isNaN x = true ↔ value t x = .nan := by
  cases t
  case bool => exact ⟨fun h => absurd (show false = true from h) (by decide), fun h => absurd h (by simp [value])⟩
  all_goals exact ops_isNaN_iff _ x

theorem keyLt_iff {t : DT} (v : List (BitVec t.bits)) (hb : t = .bool → ∀ x ∈ v, x.toNat ≤ 1) (i j : Nat) :
    keyLt (opsArg t).lt v i j = true ↔ before t (keyOf v i) (keyOf v j) := by
  have hk : ∀ i, t = .bool → (keyOf v i).toNat ≤ 1 := by
    intro i ht
    unfold keyOf
    cases h : v[i]? with
    | none => simp
    | some x => exact hb ht x (List.mem_of_getElem? h)
  exact opsArg_lt_iff t (keyOf v i) (keyOf v j) (hk i) (hk j)

/-- C20 (partial: a merge argsort of more than 15 keys needs keys without NaN, see `C20_merge_nan_violated`):
argsort returns, and its result is a permutation of `0 .. n-1` along which the keys ascend, NaNs last. -/
theorem C20_argsort_partial (t : DT) (k : Kind) (v : List (BitVec t.bits)) (w : List Nat)
    (hw : w.length = v.length / 2) (hn : v.length < 2 ^ 63) (hb : t = .bool → ∀ x ∈ v, x.toNat ≤ 1)
    (hk : k ≠ .merge ∨ v.length ≤ 15 ∨ ∀ x ∈ v, value t x ≠ .nan) :
    ∃ ix, argsortSerial (opsArg t) k v (List.range v.length) w = some ix ∧
      IsArgsort (before t) (keyOf v) v.length ix := by
  obtain ⟨ix, h1, h2, h3, _⟩ := argsort_general (opsArg_ok t) k v w hw hn (by
    refine hk.imp id (Or.imp id fun h x hx => ?_)
    rw [Bool.eq_false_iff, ne_eq, opsArg_isNaN]
    exact h x hx)
  exact ⟨ix, h1, h2, (ascending_iff (keyLt_iff v hb) ix).1 h3⟩

/-- C21 (partial: same restriction): the merge argsort keeps equal keys in their original order. -/
theorem C21_argsort_stable_partial (t : DT) (v : List (BitVec t.bits)) (w : List Nat)
    (hw : w.length = v.length / 2) (hn : v.length < 2 ^ 63) (hb : t = .bool → ∀ x ∈ v, x.toNat ≤ 1)
    (hk : v.length ≤ 15 ∨ ∀ x ∈ v, value t x ≠ .nan) :
    ∃ ix, argsortSerial (opsArg t) .merge v (List.range v.length) w = some ix ∧
      IsStableArgsort (before t) (keyOf v) v.length ix := by
  obtain ⟨ix, h1, h2, _, h4⟩ := argsort_general (opsArg_ok t) .merge v w hw hn (by
    refine Or.inr (Or.imp id (fun h x hx => ?_) hk)
    rw [Bool.eq_false_iff, ne_eq, opsArg_isNaN]
    exact h x hx)
  refine ⟨ix, h1, h2, ?_⟩
  refine ((h4 rfl).stableArg (keyLt_swo (opsArg_ok t).swo v)).imp fun {i j} h => ?_
  rw [Bool.eq_false_iff, ne_eq, Bool.eq_false_iff, ne_eq, keyLt_iff v hb, keyLt_iff v hb] at h
  exact h

/-- C20: whatever the keys (NaNs included), every kind of argsort stays inside its memory, returns, and returns
each index exactly once. -/
theorem C20_argsort_permutation (t : DT) (k : Kind) (v : List (BitVec t.bits)) (w : List Nat)
    (hw : w.length = v.length / 2) (hn : v.length < 2 ^ 63) :
    ∃ ix, argsortSerial (opsArg t) k v (List.range v.length) w = some ix ∧ ix.Perm (List.range v.length) := by
  by_cases hk : k = .merge
  · subst hk
    obtain ⟨S', W', h1, h2, h3⟩ := (pms_all (opsArg_ok t) v v.length).1 [] (List.range v.length) [] [] w [] (by simp)
      (by omega) (fun i hi => List.mem_range.1 hi)
    have h3' : amergesort0 (opsArg t) v (List.range v.length) w 0 v.length 0 = some (S', W') := by simpa using h3
    exact ⟨S', by simp [argsortSerial, argsortFn, h3'], h1⟩
  · obtain ⟨ix, h1, h2, _⟩ := argsort_general (opsArg_ok t) k v w hw hn (Or.inl hk)
    exact ⟨ix, h1, h2⟩

/-! ### Concrete cases -/

/-- A double array with a NaN and two zeros of different sign. -/
example := C18_merge_stable .f64 [0x7ff8000000000000, 0x8000000000000000, 0#64] [5] rfl (by decide)
example := C18_sort_ascending .i32 .quick [3, -1, 2#32, 0] [0, 0] rfl (by decide)
example := C19_sort_stays_inside .u8 .heap [7] [3, 1, 2#8] [9] [0] rfl (by decide)
example := C20_argsort_partial .f32 .quick [0x7fc00000, 0x3f800000, 0#32] [0] rfl (by decide) (by decide) (Or.inl (by decide))
example := C21_argsort_stable_partial .bool [1, 0, 1, 0#8] [0, 0] rfl (by decide) (by decide) (Or.inl (by decide))

/-- Keys of the counterexample: seven times 0.0, NaN, eight times 1.0. -/
def nanKeys : List (BitVec DT.f64.bits) :=
  [0, 0, 0, 0, 0, 0, 0, 0x7ff8000000000000, 0x3ff0000000000000, 0x3ff0000000000000, 0x3ff0000000000000, 0x3ff0000000000000,
   0x3ff0000000000000, 0x3ff0000000000000, 0x3ff0000000000000, 0x3ff0000000000000]

/-- An insertion sort leaves sorted indices alone. -/
theorem insertion_asc {α : Type} [Inhabited α] {o : Ops α} (ho : OpsOk o) (v : List α) (A S B : List Nat)
    (hP : ∀ i ∈ S, i < v.length) (ha : Asc (keyLt o.lt v) S) {pl pr : Nat} (hl : pl = A.length)
    (hr : pr = A.length + S.length) :
    insertLoop (indirect o.lt v) pl pr (A ++ S ++ B) (pl + 1) = some (A ++ S ++ B) := by
  obtain ⟨S', h1, h2⟩ := insertion_ok (computes_indirect o.lt v) (keyLt_swo ho.swo v) A S B hP hl hr
  rw [h2, SS.eq (keyLt_swo ho.swo v) h1 (SS.refl ha)]

/-- What the merge argsort does with these keys: the last merge compares with `<` only, so nothing is less than the
NaN, and it stays before the 1.0s. -/
theorem merge_nan_run (w : List Nat) (hw : w.length = 8) :
    argsortSerial (opsArg .f64) .merge nanKeys (List.range 16) w = some (List.range 16) := by
  have ho := opsOk .f64
  have hr : List.range 16 = [0, 1, 2, 3, 4, 5, 6, 7] ++ [8, 9, 10, 11, 12, 13, 14, 15] := rfl
  have i1 := insertion_asc ho nanKeys [0, 1, 2, 3, 4, 5, 6, 7] [8, 9, 10, 11, 12, 13, 14, 15] [] (by decide)
    (by unfold Asc; decide) (pl := 8) (pr := 16) rfl rfl
  have i2 := insertion_asc ho nanKeys [] [0, 1, 2, 3, 4, 5, 6, 7] [8, 9, 10, 11, 12, 13, 14, 15] (by decide)
    (by unfold Asc; decide) (pl := 0) (pr := 8) rfl rfl
  simp only [List.append_nil, List.nil_append] at i1 i2
  rw [← hr] at i1 i2
  have e1 : ∀ a w, amergesort0 (ops .f64) nanKeys a w (0 + (16 - 0) / 2) 16 0 =
      (insertLoop (indirect (ops .f64).lt nanKeys) 8 16 a (8 + 1)).bind fun a => some (a, w) := by
    intro a w; rw [amergesort0, if_neg (by decide)]; rfl
  have e2 : ∀ a w, amergesort0left (ops .f64) nanKeys a w 0 (0 + (16 - 0) / 2) 0 =
      (insertLoop (indirect (ops .f64).lt nanKeys) 0 8 a (0 + 1)).bind fun a => some (a, w, false) := by
    intro a w; rw [amergesort0left, if_neg (by decide)]; rfl
  have hb : blit (List.range 16) 0 w 0 (0 + (16 - 0) / 2 - 0) = some [0, 1, 2, 3, 4, 5, 6, 7] := by
    have := blit_eq (A1 := []) (S := [0, 1, 2, 3, 4, 5, 6, 7]) (A2 := [8, 9, 10, 11, 12, 13, 14, 15]) (B1 := []) (G := w)
      (B2 := []) (s := 0) (d := 0) (n := 8) rfl rfl rfl hw.symm
    simpa [hr] using this
  have hm := mergeBack_ok (tr := indirect (ops .f64).rawLt nanKeys) (t := keyLt (ops .f64).rawLt nanKeys)
    [] [0, 1, 2, 3, 4, 5, 6, 7] [] [] [0, 1, 2, 3, 4, 5, 6, 7] [8, 9, 10, 11, 12, 13, 14, 15] [] rfl
    (fun r hr l hl => computes_indirect (ops .f64).rawLt nanKeys r l (by revert r; decide) (by revert l; decide))
    (pw := 0) (pwEnd := 0 + (0 + (16 - 0) / 2 - 0)) (pm := 0 + (16 - 0) / 2) (pr := 16) (pl := 0) rfl rfl rfl rfl rfl
  rw [show mergeL (keyLt (ops .f64).rawLt nanKeys) [0, 1, 2, 3, 4, 5, 6, 7] [8, 9, 10, 11, 12, 13, 14, 15] = List.range 16 by
    decide +kernel] at hm
  simp only [List.append_nil, List.nil_append] at hm
  rw [← hr] at hm
  have hcmp : indirect (ops .f64).lt nanKeys 8 7 = some true := by decide
  show Option.map _ (amergesort0 (ops .f64) nanKeys (List.range 16) w 0 16 0) = _
  rw [amergesort0, if_pos (by decide)]
  simp only [e1, e2, i1, i2, Option.bind_eq_bind, Option.bind_some, Bool.false_eq_true, if_false]
  rw [show (List.range 16)[0 + (16 - 0) / 2]? = some 8 from rfl, show (List.range 16)[0 + (16 - 0) / 2 - 1]? = some 7 from rfl]
  simp only [Option.bind_some, hcmp, if_true, hb]
  simp only [Option.bind_eq_bind] at hm
  obtain ⟨m, hm1, hm2⟩ := Option.bind_eq_some_iff.1 hm
  rw [hm1, Option.bind_some, hm2, Option.bind_some]
  rfl

/-- C20 is false for the merge argsort (and so for lexsort and `kind='stable'`) of more than 15 keys with a NaN. -/
theorem C20_merge_nan_violated : ∃ (v : List (BitVec DT.f64.bits)) (ix : List Nat), ∀ w : List Nat, w.length = v.length / 2 →
    argsortSerial (opsArg .f64) .merge v (List.range v.length) w = some ix ∧
    ¬ IsArgsort (before .f64) (keyOf v) v.length ix :=
  ⟨nanKeys, List.range 16, fun w hw => ⟨merge_nan_run w hw, fun h => by
    have h1 := (List.pairwise_iff_getElem.1 h.2) 7 8 (by decide) (by decide) (by decide)
    exact h1 ((ops_lt_iff .f64 _ _).1 (by decide))⟩⟩

/-! ### float16 -/

/-- C46 is false: `pn.sort` / `np.sort` of float16 compares the bit patterns as unsigned integers, so -1.0 (0xbc00)
stays after 1.0 (0x3c00), with every sort kind. -/
theorem C46_half_sort_violated (k : Kind) : ∃ a' : List (BitVec 16),
    sortSerial opsHalf k [0x3c00, 0xbc00] [0] = some a' ∧
    ¬ Ascending (fun x y => (floatValue 5 10 x).lt (floatValue 5 10 y)) a' := by
  obtain ⟨a', h1, h2, h3⟩ := C18_sort_ascending .u16 k [0x3c00, 0xbc00] [0] rfl (by decide)
  refine ⟨a', h1, fun h => ?_⟩
  have hm : a' = [0x3c00, 0xbc00] ∨ a' = [0xbc00, 0x3c00] := by
    have := List.mem_permutations'.2 h2
    rw [show List.permutations' [(0x3c00 : BitVec DT.u16.bits), 0xbc00] = [[0x3c00, 0xbc00], [0xbc00, 0x3c00]] by decide] at this
    simpa using this
  rcases hm with rfl | rfl
  · have h4 := (List.pairwise_iff_getElem.1 h) 0 1 (by decide) (by decide) (by decide)
    exact h4 (by decide)
  · have h4 := (List.pairwise_iff_getElem.1 h3) 0 1 (by decide) (by decide) (by decide)
    exact h4 (by decide)

end Pnumpy.Props
