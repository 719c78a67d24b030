import Verif.Props.Group
/-
Property theorems C28: grouping of keys of any numeric type, in particular floating point.
-/
namespace Pnumpy.Props
open Spec Pnumpy.Sort Pnumpy.Str Pnumpy.Group

/-- Keys that are different as numbers are ordered (all NaN count as one key). -/
theorem orders_of_distinct (t : DT) (v : List (BitVec t.bits)) (h : ∀ x ∈ v, ∀ y ∈ v, value t x = value t y → x = y) :
    Orders (before t) v := by
  refine ⟨fun x _ hb => ?_, fun x hx y hy hne => ?_⟩
  · rcases hb with hb | ⟨h1, h2⟩
    · revert hb; cases value t x <;> simp [Value.lt]
    · exact h2 h1
  · have hv : value t x ≠ value t y := fun e => hne (h x hx y hy e)
    unfold before
    cases hx' : value t x <;> cases hy' : value t y <;> simp_all [Value.lt]

/-- **C28, partial** (every numeric type, floats included): if no two different bit patterns among the keys are the same number
(that is: not both zeros, and at most one kind of NaN), grouping a stable argsort gives ids that are equal exactly for equal keys,
the first row of each group and the number of rows of each group.  Missing: keys with both zeros or several kinds of NaN, for
which it is false (`C28_ids_iff_partial`). -/
theorem C28_group_distinct_partial (t : DT) (v : List (BitVec t.bits)) (hne : v ≠ [])
    (hd : ∀ x ∈ v, ∀ y ∈ v, value t x = value t y → x = y)
    (base : Nat) (hbase : base ≤ 1) (ix : List Nat) (hs : IsStableArgsort (before t) (keyOf v) v.length ix)
    (group first count : List Nat) (hg : group.length = v.length) (hf : first.length = v.length) (hc : count.length = v.length + 1) :
    ∃ u ids firsts counts, groupNum v base ix group first count = some (u, ids, firsts, counts) ∧
      IsGrouping v base u ids (firsts.take u) ((counts.drop base).take u) ∧
      (∀ i j, i < v.length → j < v.length → (ids[i]? = ids[j]? ↔ v[i]?.map (value t) = v[j]?.map (value t))) ∧
      (base = 1 → counts[0]? = some 0) := by
  obtain ⟨u, G, F, C, h1, h2, h3⟩ := group_general (eq := fun x y => some (x == y)) hbase (orders_of_distinct t v hd) (fun _ _ _ _ => rfl) hne hs
    group first count hg (by omega) (by omega)
  refine ⟨u, G, F, C, h1, h2, fun i j hi hj => ?_, h3⟩
  rw [h2.same i j hi hj, List.getElem?_eq_getElem hi, List.getElem?_eq_getElem hj]
  simp only [Option.map_some, Option.some.injEq]
  exact ⟨fun e => by rw [e], fun e => hd _ (List.getElem_mem hi) _ (List.getElem_mem hj) e⟩

/-- **C28, exactly when** (every numeric type): grouping a stable argsort touches no memory outside the arrays, whatever the keys, and
gives equal ids exactly to rows with equal keys if and only if no two different bit patterns among the keys are the same number.
So every array that holds both 0.0 and -0.0 (or two kinds of NaN) is grouped wrongly. -/
theorem C28_ids_iff_partial (t : DT) (v : List (BitVec t.bits)) (hne : v ≠ [])
    (base : Nat) (hbase : base ≤ 1) (ix : List Nat) (hs : IsStableArgsort (before t) (keyOf v) v.length ix)
    (group first count : List Nat) (hg : group.length = v.length) (hf : first.length = v.length) (hc : count.length = v.length + 1) :
    ∃ u ids firsts counts, groupNum v base ix group first count = some (u, ids, firsts, counts) ∧
      ((∀ i j, i < v.length → j < v.length → (ids[i]? = ids[j]? ↔ v[i]?.map (value t) = v[j]?.map (value t))) ↔
        ∀ x ∈ v, ∀ y ∈ v, value t x = value t y → x = y) := by
  have hil : ix.length = v.length := by simpa using hs.1.length_eq
  have hmem : ∀ i, i ∈ ix ↔ i < v.length := fun i => hs.1.mem_iff.trans List.mem_range
  have hpos : 0 < v.length := List.length_pos_iff.2 hne
  let k : Nat → BitVec t.bits := fun j => v[(ix[j]?.getD 0)]?.getD default
  have hkey : ∀ j i, ix[j]? = some i → v[i]? = some (k j) := by
    intro j i hj
    have hi := (hmem i).1 (List.mem_of_getElem? hj)
    show _ = some (v[(ix[j]?.getD 0)]?.getD default)
    rw [hj, Option.getD_some, List.getElem?_eq_getElem hi, Option.getD_some]
  have hin : Input (fun x y => some (x == y)) v ix k base v.length first.length count.length :=
    ⟨hs.1.nodup_iff.2 List.nodup_range, hkey, fun _ _ _ _ => rfl, rfl, by omega, by omega⟩
  obtain ⟨u, G, F, C, h1, h2, _, _, _, h6, _, _, _⟩ := groupIndex_ok (base := base) hin hbase (by omega) group first count hg rfl rfl
  refine ⟨u, G, F, C, h1, fun hall x hx y hy hxy => ?_, fun hd => ?_⟩
  · obtain ⟨i, hi, rfl⟩ := List.getElem_of_mem hx
    obtain ⟨j, hj, rfl⟩ := List.getElem_of_mem hy
    have hid := (hall i j hi hj).mpr (by rw [List.getElem?_eq_getElem hi, List.getElem?_eq_getElem hj, Option.map_some, Option.map_some, hxy])
    obtain ⟨a, ha, rfl⟩ := List.getElem_of_mem ((hmem i).mpr hi)
    obtain ⟨b, hb, rfl⟩ := List.getElem_of_mem ((hmem j).mpr hj)
    have ea := List.getElem?_eq_getElem ha
    have eb := List.getElem?_eq_getElem hb
    rw [h6 a _ ea, h6 b _ eb, Option.some.injEq] at hid
    have hgid : gid k a = gid k b := by omega
    have hk : k a = k b := by
      rcases Nat.le_total a b with h | h
      · exact gid_key k h hgid
      · exact (gid_key k h hgid.symm).symm
    have ka := hkey a _ ea
    have kb := hkey b _ eb
    rw [List.getElem?_eq_getElem hi] at ka
    rw [List.getElem?_eq_getElem hj] at kb
    rw [Option.some.inj ka, Option.some.inj kb, hk]
  · obtain ⟨u', G', F', C', g1, _, g3, _⟩ := C28_group_distinct_partial t v hne hd base hbase ix hs group first count hg hf hc
    have : some (u, G, F, C) = some (u', G', F', C') := by rw [← h1, ← g1]; rfl
    simp only [Option.some.injEq, Prod.mk.injEq] at this
    rw [this.2.1]
    exact g3

/-- Keys 3 times the smallest float32, NaN, -0.0, NaN, 3 times the smallest float32. -/
def groupKeys : List (BitVec 32) := [0x00000003#32, 0x7FC00000#32, 0x80000000#32, 0x7FC00000#32, 0x00000003#32]

theorem groupKeys_values : value .f32 0x00000003#32 = .fin 3 ∧ value .f32 0x7FC00000#32 = .nan ∧
    value .f32 0x80000000#32 = .fin 0 := by
  refine ⟨?_, ?_, ?_⟩ <;> decide

theorem groupKeys_distinct : ∀ x ∈ groupKeys, ∀ y ∈ groupKeys, value .f32 x = value .f32 y → x = y := by
  obtain ⟨h1, h2, h3⟩ := groupKeys_values
  intro x hx y hy
  simp only [groupKeys, List.mem_cons, List.not_mem_nil, or_false] at hx hy
  rcases hx with rfl | rfl | rfl | rfl | rfl <;> rcases hy with rfl | rfl | rfl | rfl | rfl <;> first
    | exact fun _ => rfl
    | (simp only [h1, h2, h3]; intro h; exact absurd h (by simp))

theorem groupKeys_sorted : IsStableArgsort (before .f32) (keyOf groupKeys) groupKeys.length [2, 0, 4, 1, 3] := by
  obtain ⟨h1, h2, h3⟩ := groupKeys_values
  refine ⟨by decide, ?_⟩
  have k0 : value .f32 (keyOf (t := .f32) groupKeys 0) = .fin 3 := h1
  have k1 : value .f32 (keyOf (t := .f32) groupKeys 1) = .nan := h2
  have k2 : value .f32 (keyOf (t := .f32) groupKeys 2) = .fin 0 := h3
  have k3 : value .f32 (keyOf (t := .f32) groupKeys 3) = .nan := h2
  have k4 : value .f32 (keyOf (t := .f32) groupKeys 4) = .fin 3 := h1
  simp [before, k0, k1, k2, k3, k4, Value.lt]

/-- Case of `C28_group_distinct_partial`. -/
example := C28_group_distinct_partial .f32 groupKeys (List.cons_ne_nil _ _) groupKeys_distinct 1 (by decide) [2, 0, 4, 1, 3] groupKeys_sorted
  [0, 0, 0, 0, 0] [0, 0, 0, 0, 0] [0, 0, 0, 0, 0, 0] rfl rfl rfl

/-- **C28, partial** with lexsort: the index that lexsort returns for one key of any numeric type without NaN and without both
zeros can be grouped, and ids are equal exactly for equal numbers.  Missing: keys with NaN or both zeros (`C28_ids_iff_partial`). -/
theorem C28_lexsort_group_distinct_partial (t : DT) (v : List (BitVec t.bits)) (hb : t = .bool → ∀ x ∈ v, x.toNat ≤ 1)
    (hnan : ∀ x ∈ v, value t x ≠ .nan) (hd : ∀ x ∈ v, ∀ y ∈ v, value t x = value t y → x = y)
    (hn : v.length < 2 ^ 63) (hne : v ≠ []) (base : Nat) (hbase : base ≤ 1) (ix : List Nat)
    (hlex : Lex.LexRun .merge [.num t v] v.length ix)
    (group first count : List Nat) (hg : group.length = v.length) (hf : first.length = v.length) (hc : count.length = v.length + 1) :
    ∃ u ids firsts counts, groupNum v base ix group first count = some (u, ids, firsts, counts) ∧
      IsGrouping v base u ids (firsts.take u) ((counts.drop base).take u) ∧
      (∀ i j, i < v.length → j < v.length → (ids[i]? = ids[j]? ↔ v[i]?.map (value t) = v[j]?.map (value t))) := by
  have h := (C24_lexsort_partial [.num t v] v.length (by
    intro c hc
    rw [List.mem_singleton] at hc; subst hc
    exact ⟨⟨hb, hnan⟩, rfl⟩) hn (by
    rintro ⟨c, hc, h⟩
    rw [List.mem_singleton] at hc; subst hc
    exact absurd h id)).2 ix hlex
  have hs : IsStableArgsort (before t) (keyOf v) v.length ix := by
    refine ⟨h.1, h.2.imp fun {i j} hij => ?_⟩
    have e : ∀ a b, RowBefore [(Col.num t v).before] a b ↔ before t (keyOf v a) (keyOf v b) := fun a b => by
      simp only [RowBefore, Col.before, false_or, not_false_eq_true, true_and]
    exact ⟨fun q => hij.1 ((e _ _).2 q), fun q => hij.2 fun p => q ((e _ _).1 p)⟩
  obtain ⟨u, G, F, C, h1, h2, h3, _⟩ := C28_group_distinct_partial t v hne hd base hbase ix hs group first count hg hf hc
  exact ⟨u, G, F, C, h1, h2, h3⟩

/-- An index as lexsort returns it for two float32 keys exists. -/
example : ∃ ix, Lex.LexRun .merge [.num .f32 [0x80000000#32, 0x00000003#32]] 2 ix :=
  (C24_lexsort_partial [.num .f32 [0x80000000#32, 0x00000003#32]] 2 (by
    obtain ⟨h1, h2, h3⟩ := groupKeys_values
    intro c hc
    rw [List.mem_singleton] at hc; subst hc
    refine ⟨⟨(fun h => by cases h), fun x hx => ?_⟩, rfl⟩
    rcases List.mem_cons.mp hx with rfl | hx
    · intro h; exact absurd (h3.symm.trans h) (by simp)
    · obtain rfl : x = 0x00000003#32 := List.mem_singleton.mp hx
      intro h; exact absurd (h1.symm.trans h) (by simp)) (by decide) (by
    rintro ⟨c, hc, h⟩
    rw [List.mem_singleton] at hc; subst hc
    exact absurd h id)).1

/-- Case of `C28_ids_iff_partial`: both zeros. -/
example := C28_ids_iff_partial .f64 [0, 0x8000000000000000, 0] (by simp) 1 (by decide) [0, 1, 2] ⟨by decide, by unfold keyOf; decide⟩
  [0, 0, 0] [0, 0, 0] [0, 0, 0, 0] rfl rfl rfl

end Pnumpy.Props
