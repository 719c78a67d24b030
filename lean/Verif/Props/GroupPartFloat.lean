import Verif.Props.GroupPart
import Verif.Props.GroupFloat
/-
Property theorems C92: grouping in partitions for keys of any numeric type.
-/
namespace Pnumpy.Props
open Spec Pnumpy.Sort Pnumpy.Str Pnumpy.Group Pnumpy.GroupPart

/-- **C92, partial** (every numeric type, floats included; nonempty partitions): as `C92_group_partial`, if no two different bit
patterns among the keys are the same number.  Missing: keys with both zeros or several kinds of NaN, for which already one
partition is numbered wrongly (`C28_ids_iff_partial`). -/
theorem C92_group_distinct_partial (t : DT) (v : List (BitVec t.bits)) (hd : ∀ x ∈ v, ∀ y ∈ v, value t x = value t y → x = y)
    (cuts ix : List Nat) (hc : Cuts cuts v.length) (hix : ix.length = v.length)
    (hs : ∀ p ∈ parts cuts, IsStableArgsort (before t) (keyOf (slice v p)) (p.2 - p.1) (slice ix p)) (base : Nat)
    (fresh : Nat → Nat → List Nat) (hfr : ∀ k n, (fresh k n).length = n) (o1 o2 : List Nat) (ho1 : o1.Perm (List.range cuts.length)) (ho2 : o2.Perm (List.range cuts.length)) :
    ∃ keys firsts counts uniq ix', callNum v base cuts ix fresh o1 o2 = .ok keys firsts counts uniq ix' ∧
      IsGrouping (tagged cuts v) 1 (uniq.getLastD 0) keys firsts counts.tail ∧ counts.head? = some 0 ∧ uniq.length = cuts.length ∧
      (∀ k p, (parts cuts)[k]? = some p → slice ix' p = (slice ix p).map (· + p.1) ∧
        ∀ x ∈ slice keys p, (if k = 0 then 0 else uniq.getD (k - 1) 0) < x ∧ x ≤ uniq.getD k 0) :=
  part_general hc (orders_of_distinct t v hd) (fun _ _ _ _ => rfl) hix hs base fresh hfr o1 o2 ho1 ho2

theorem groupKeys_sorted2 : ∀ p ∈ parts [3, 5],
    IsStableArgsort (before .f32) (keyOf (t := .f32) (slice groupKeys p)) (p.2 - p.1) (slice [2, 0, 1, 1, 0] p) := by
  obtain ⟨h1, h2, h3⟩ := groupKeys_values
  intro p hp
  have : p = (0, 3) ∨ p = (3, 5) := by simpa [parts] using hp
  rcases this with rfl | rfl
  · refine ⟨by decide, ?_⟩
    have k0 : value .f32 (keyOf (t := .f32) (slice groupKeys (0, 3)) 0) = .fin 3 := h1
    have k1 : value .f32 (keyOf (t := .f32) (slice groupKeys (0, 3)) 1) = .nan := h2
    have k2 : value .f32 (keyOf (t := .f32) (slice groupKeys (0, 3)) 2) = .fin 0 := h3
    simp [slice, before, Value.lt] at k0 k1 k2 ⊢
    simp [k0, k1, k2]
  · refine ⟨by decide, ?_⟩
    have k0 : value .f32 (keyOf (t := .f32) (slice groupKeys (3, 5)) 0) = .nan := h2
    have k1 : value .f32 (keyOf (t := .f32) (slice groupKeys (3, 5)) 1) = .fin 3 := h1
    simp [slice, before, Value.lt] at k0 k1 ⊢
    simp [k0, k1]

/-- Case: the keys of `C28_group_distinct_partial` in two partitions, the second one done first. -/
example := C92_group_distinct_partial .f32 groupKeys groupKeys_distinct [3, 5] [2, 0, 1, 1, 0] ⟨by decide, rfl⟩ rfl groupKeys_sorted2
  1 (fun _ n => List.replicate n 99) (by simp) [1, 0] [1, 0] (by decide) (by decide)

end Pnumpy.Props
