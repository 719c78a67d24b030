import Verif.Proofs.MergeSort
import Verif.Proofs.ArgMergeSort
import Verif.Proofs.HeapSort
import Verif.Proofs.QuickSort
import Verif.Spec.Sort
import Verif.Props.Compare
/-
`COMPARE_LT`, `<=`, `<` and `x != x` of every element type are what the sorting routines need.
-/
namespace Pnumpy.Sort
open Spec Compare

/-- The order of values: NaN last. -/
def vbefore (a b : Value) : Prop := a.lt b ∨ (b = .nan ∧ a ≠ .nan)

theorem vbefore_asymm (a b : Value) (h : vbefore a b) : ¬ vbefore b a := by
  unfold vbefore at *
  cases a <;> cases b <;> simp [Value.lt] at *
  omega

theorem vbefore_negTrans (a b c : Value) (h : vbefore a c) : vbefore a b ∨ vbefore b c := by
  unfold vbefore at *
  cases a <;> cases b <;> cases c <;> simp [Value.lt] at *
  omega

theorem fne_self (E M : Nat) (hE : 0 < E) {k : Nat} (x : BitVec k) :
    Ieee.fne E M x x = true ↔ floatValue E M x = .nan := by
  have h := Props.fpred_iff E M hE .ne x x
  simp only [fpred] at h
  rw [h]
  simp only [CmpOp.holds]
  cases hv : floatValue E M x <;> simp [Value.eq]

theorem feq_self (E M : Nat) (hE : 0 < E) {k : Nat} (x : BitVec k) :
    Ieee.feq E M x x = true ↔ floatValue E M x ≠ .nan := by
  rw [Ieee.feq_iff E M hE]
  cases hv : floatValue E M x <;> simp [Value.eq]

theorem bool_val (z : BitVec 8) : value .bool z = .fin (if (z == 0) = true then 0 else 1) := by
  by_cases hz : z = 0
  · subst hz; rfl
  · have h1 : (z == 0) = false := by rw [beq_eq_false_iff_ne]; exact hz
    rw [h1]
    show Value.fin (if z = (0 : BitVec 8) then 0 else 1) = _
    rw [if_neg hz]; rfl

theorem bool_lt (x y : BitVec 8) : (x == 0 && y != 0) = true ↔ before .bool x y := by
  unfold before
  rw [bool_val, bool_val, bne]
  generalize (x == 0) = X
  generalize (y == 0) = Y
  revert X Y
  decide

theorem bool_le (x y : BitVec 8) : (x == 0 || y != 0) = true ↔
    (value .bool x).lt (value .bool y) ∨ (value .bool x).eq (value .bool y) := by
  rw [bool_val, bool_val, bne]
  generalize (x == 0) = X
  generalize (y == 0) = Y
  revert X Y
  decide

theorem ops_lt_iff (t : DT) (x y : BitVec t.bits) : (ops t).lt x y = true ↔ before t x y := by
  cases t
  case bool =>
    exact bool_lt x y
  case i8 => simp only [ops, before, value, Value.lt]; rw [BitVec.slt_iff_toInt_lt]; simp
  case i16 => simp only [ops, before, value, Value.lt]; rw [BitVec.slt_iff_toInt_lt]; simp
  case i32 => simp only [ops, before, value, Value.lt]; rw [BitVec.slt_iff_toInt_lt]; simp
  case i64 => simp only [ops, before, value, Value.lt]; rw [BitVec.slt_iff_toInt_lt]; simp
  case u8 => simp only [ops, before, value, Value.lt]; rw [BitVec.ult_iff_lt, BitVec.lt_def]; simp
  case u16 => simp only [ops, before, value, Value.lt]; rw [BitVec.ult_iff_lt, BitVec.lt_def]; simp
  case u32 => simp only [ops, before, value, Value.lt]; rw [BitVec.ult_iff_lt, BitVec.lt_def]; simp
  case u64 => simp only [ops, before, value, Value.lt]; rw [BitVec.ult_iff_lt, BitVec.lt_def]; simp
  case f32 =>
    simp only [ops, before, value, Bool.or_eq_true, Bool.and_eq_true]
    rw [Ieee.flt_iff 8 23 (by decide), fne_self 8 23 (by decide), feq_self 8 23 (by decide)]
  case f64 =>
    simp only [ops, before, value, Bool.or_eq_true, Bool.and_eq_true]
    rw [Ieee.flt_iff 11 52 (by decide), fne_self 11 52 (by decide), feq_self 11 52 (by decide)]

theorem ops_isNaN_iff (t : DT) (x : BitVec t.bits) : (ops t).isNaN x = true ↔ value t x = .nan := by
  cases t
  case f32 => exact fne_self 8 23 (by decide) x
  case f64 => exact fne_self 11 52 (by decide) x
  all_goals simp [ops, value]

theorem ops_le_iff (t : DT) (x y : BitVec t.bits) :
    (ops t).le x y = true ↔ (value t x).lt (value t y) ∨ (value t x).eq (value t y) := by
  cases t
  case bool =>
    exact bool_le x y
  case f32 => exact Ieee.fle_iff 8 23 (by decide) x y
  case f64 => exact Ieee.fle_iff 11 52 (by decide) x y
  case i8 => simp only [ops, value, Value.lt, Value.eq]; rw [BitVec.sle_iff_toInt_le]; simp; omega
  case i16 => simp only [ops, value, Value.lt, Value.eq]; rw [BitVec.sle_iff_toInt_le]; simp; omega
  case i32 => simp only [ops, value, Value.lt, Value.eq]; rw [BitVec.sle_iff_toInt_le]; simp; omega
  case i64 => simp only [ops, value, Value.lt, Value.eq]; rw [BitVec.sle_iff_toInt_le]; simp; omega
  case u8 => simp only [ops, value, Value.lt, Value.eq]; rw [BitVec.ule_iff_le, BitVec.le_def]; simp; omega
  case u16 => simp only [ops, value, Value.lt, Value.eq]; rw [BitVec.ule_iff_le, BitVec.le_def]; simp; omega
  case u32 => simp only [ops, value, Value.lt, Value.eq]; rw [BitVec.ule_iff_le, BitVec.le_def]; simp; omega
  case u64 => simp only [ops, value, Value.lt, Value.eq]; rw [BitVec.ule_iff_le, BitVec.le_def]; simp; omega

theorem ops_rawLt_iff (t : DT) (x y : BitVec t.bits) :
    (ops t).rawLt x y = true ↔ (value t x).lt (value t y) := by
  cases t
  case f32 => exact Ieee.flt_iff 8 23 (by decide) x y
  case f64 => exact Ieee.flt_iff 11 52 (by decide) x y
  all_goals
    rw [show (ops _).rawLt x y = (ops _).lt x y from rfl, ops_lt_iff]
    simp [before, value]

theorem opsOk (t : DT) : OpsOk (ops t) := by
  refine ⟨⟨fun x y h => ?_, fun x y z h => ?_⟩, fun x y hx hy => ?_, fun x y hx => ?_, fun l r hr => ?_, fun x y hx hy => ?_⟩
  · rw [ops_lt_iff] at h
    rw [Bool.eq_false_iff, ne_eq, ops_lt_iff]
    exact vbefore_asymm _ _ h
  · rw [ops_lt_iff] at h ⊢
    rw [ops_lt_iff]
    exact vbefore_negTrans _ _ _ h
  · rw [Bool.eq_false_iff, ne_eq, ops_isNaN_iff] at hx
    rw [ops_isNaN_iff] at hy
    rw [ops_lt_iff]
    exact Or.inr ⟨hy, hx⟩
  · rw [ops_isNaN_iff] at hx
    rw [Bool.eq_false_iff, ne_eq, ops_lt_iff]
    unfold before
    rw [hx]
    simp [Value.lt]
  · rw [Bool.eq_false_iff, ne_eq, ops_isNaN_iff] at hr
    rw [Bool.eq_iff_iff, Bool.not_eq_true', Bool.eq_false_iff, ne_eq, ops_le_iff, ops_lt_iff]
    unfold before
    revert hr
    generalize value t l = a
    generalize value t r = b
    intro hr
    cases a <;> cases b <;> simp [Value.lt, Value.eq] at hr ⊢
    omega
  · rw [Bool.eq_false_iff, ne_eq, ops_isNaN_iff] at hx hy
    rw [Bool.eq_iff_iff, ops_rawLt_iff, ops_lt_iff]
    unfold before
    simp [hy]

/-! ### From the model's lists to the specification -/

variable {α : Type}

theorem ascending_iff {lt : α → α → Bool} {bf : α → α → Prop} (h : ∀ x y, lt x y = true ↔ bf x y) (l : List α) :
    Asc lt l ↔ Ascending bf l := by
  unfold Asc Ascending
  have e : (fun x y => lt y x = false) = fun x y => ¬ bf y x := by
    funext x y; rw [← h, Bool.not_eq_true]
  rw [e]

theorem SS.stableSort {lt : α → α → Bool} {bf : α → α → Prop} [DecidableRel bf] (h : ∀ x y, lt x y = true ↔ bf x y)
    {l' l : List α} (hs : SS lt l' l) : IsStableSortOf bf l' l := by
  refine ⟨⟨hs.perm, (ascending_iff h l').1 hs.asc⟩, fun c => ?_⟩
  have e : (fun x => decide (¬ bf x c ∧ ¬ bf c x)) = eqv lt c := by
    funext x
    unfold eqv
    rw [Bool.eq_iff_iff]
    simp only [decide_eq_true_eq, Bool.and_eq_true, Bool.not_eq_true', Bool.eq_false_iff, ne_eq, h]
  rw [e]
  exact hs.stable c

/-- A stable sort of `0, 1, .., n-1` by key keeps equal keys in index order. -/
theorem SS.stableArg {lt : Nat → Nat → Bool} (hw : SWO lt) {ix : List Nat} {n : Nat} (hs : SS lt ix (List.range n)) :
    ix.Pairwise fun i j => lt j i = false ∧ (lt i j = false → i < j) := by
  have hnd : ix.Nodup := hs.perm.nodup_iff.2 List.nodup_range
  have hinc : ∀ c, (ix.filter (eqv lt c)).Pairwise (· < ·) := fun c => by
    rw [hs.stable c]
    exact List.Pairwise.filter _ List.pairwise_lt_range
  rw [List.pairwise_iff_forall_sublist]
  intro i j hij
  have h1 := (List.pairwise_iff_forall_sublist.1 hs.asc) hij
  refine ⟨h1, fun h2 => ?_⟩
  have hii := hw.irrefl i
  have hf : [i, j].filter (eqv lt i) = [i, j] := by
    simp [eqv, h1, h2, hii]
  have hsub := hij.filter (eqv lt i)
  rw [hf] at hsub
  exact (List.pairwise_iff_forall_sublist.1 (hinc i)) hsub

end Pnumpy.Sort
