/-
numpy's dtype numbers on Linux/x86-64 (numpy/ndarraytypes.h, enum NPY_TYPES) and what they mean.
-/
namespace Pnumpy.Spec

/-- The kind of an element type. -/
inductive Kind where
  | bool | int | uint | float | complex | object | bytes | unicode | void | datetime | timedelta
deriving DecidableEq, Repr

/-- Kind and item size in bytes of each numpy dtype number (for bytes, unicode and void: the size of one
character, or 0 for void).  24 numbers exist (NPY_NTYPES). -/
def npyType : Nat → Option (Kind × Nat)
  | 0 => some (.bool, 1)
  | 1 => some (.int, 1) | 2 => some (.uint, 1)
  | 3 => some (.int, 2) | 4 => some (.uint, 2)
  | 5 => some (.int, 4) | 6 => some (.uint, 4)
  | 7 => some (.int, 8) | 8 => some (.uint, 8)
  | 9 => some (.int, 8) | 10 => some (.uint, 8)
  | 11 => some (.float, 4) | 12 => some (.float, 8) | 13 => some (.float, 16)
  | 14 => some (.complex, 8) | 15 => some (.complex, 16) | 16 => some (.complex, 32)
  | 17 => some (.object, 8)
  | 18 => some (.bytes, 1) | 19 => some (.unicode, 4) | 20 => some (.void, 0)
  | 21 => some (.datetime, 8) | 22 => some (.timedelta, 8)
  | 23 => some (.float, 2)
  | _ => none

/-- Two dtype numbers with the same element representation. -/
def sameType (d d' : Nat) : Prop := ∃ t, npyType d = some t ∧ npyType d' = some t

/-- The types pnumpy supports: all but Python objects and dates. -/
def supported : Kind → Bool
  | .object => false | .datetime => false | .timedelta => false | _ => true

end Pnumpy.Spec
