/-
Multi-dimensional arrays: index tuples, C order, addresses.
-/
namespace Pnumpy.Spec

/-- Number of elements. -/
def count : List Nat → Nat
  | [] => 1
  | d :: ds => d * count ds

/-- `idx` is an index tuple of an array with these dimensions. -/
def inBounds : List Nat → List Nat → Prop
  | [], [] => True
  | d :: ds, i :: is => i < d ∧ inBounds ds is
  | _, _ => False

/-- Position of an index tuple in C order (last index fastest). -/
def posC : List Nat → List Nat → Nat
  | _ :: ds, i :: is => i * count ds + posC ds is
  | _, _ => 0

/-- Position of an index tuple in Fortran order (first index fastest). -/
def posF : List Nat → List Nat → Nat
  | d :: ds, i :: is => i + d * posF ds is
  | _, _ => 0

/-- Byte offset of an element. -/
def offset : List Int → List Nat → Int
  | s :: ss, i :: is => s * i + offset ss is
  | _, _ => 0

end Pnumpy.Spec
