import Verif.Model.LexEntry
import Verif.Spec.LexSort
import Verif.Spec.LexEntry
/-
Words used in the property statements about lexsort.
-/
namespace Pnumpy.Lex
open Spec

/-- Columns that go through the (wrong) parallel string merge. -/
def Col.isStr : Col → Prop
  | .str _ _ _ => True
  | _ => False

end Pnumpy.Lex

namespace Pnumpy.LexEntry
open Spec

/-- The keys of a call. -/
def keysOf (args : List PyObj) : List PyObj := match args with
  | .list ys :: _ => ys
  | _ => args

/-- A 1-D array that lexsort takes as a key: at least two elements, or packed. -/
def OneDim (a : Arr) (n : Nat) (s : Int) : Prop := a.dims = [n] ∧ a.strides = [s]

/-- An array with at least one dimension. -/
def Shaped (a : Arr) : Prop := a.strides.length = a.dims.length ∧ a.dims ≠ []

/-- A key lexsort can use: 1-D, at least two elements or packed. -/
def Acceptable (a : Arr) (n : Nat) : Prop := ∃ s, OneDim a n s ∧ (2 ≤ n ∨ s = a.itemsize)

/-- A key list without None and without 0-d arrays. -/
def Proper (h : Heap) (xs : List PyObj) : Prop :=
  ∀ x ∈ xs, x ≠ .none ∧ ∀ id, x = .array id → id < h.next ∧ Shaped (h.arr id)

end Pnumpy.LexEntry
