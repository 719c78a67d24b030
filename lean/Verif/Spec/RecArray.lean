/-
What a column of a record array is.
-/
namespace Pnumpy.Spec

/-- The field of `w` bytes at byte `off` of every record of `size` bytes, for the first `rows` records, one after the other. -/
def fieldColumn {β : Type} (rec : List β) (size off w rows : Nat) : List β :=
  (List.range rows).flatMap fun r => (rec.drop (r * size + off)).take w

end Pnumpy.Spec
