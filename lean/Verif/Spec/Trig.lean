import Verif.Spec.FloatOps
/-
Specification of which function a trigonometric call applies to which element.
-/
namespace Pnumpy.Spec

/-- Element `i` of a call on `n` elements of `size` bytes is computed by the vector routine: both operands are contiguous and
`i` lies in the part made of whole 32-byte vectors. -/
def VectorPosition (size : Nat) (s so : Int) (n i : Nat) : Prop :=
  s = size ∧ so = size ∧ i < n - n % (32 / size)

instance (size : Nat) (s so : Int) (n i : Nat) : Decidable (VectorPosition size s so n i) := by
  unfold VectorPosition; infer_instance

/-- `m'` is `m` after `out[i] = g i (in[i])` for all `i < n`, all inputs read from the original memory, and nothing else changed. -/
def MapResult {α : Type} (g : Nat → α → α) (n : Nat) (p s po so : Int) (m m' : Int → α) : Prop :=
  (∀ i : Nat, i < n → m' (po + so * i) = g i (m (p + s * i))) ∧
  (∀ a : Int, (∀ i : Nat, i < n → a ≠ po + so * i) → m' a = m a)

/-- The functions with a vector version. -/
inductive TFn where
  | sin | cos | exp | log
deriving DecidableEq

/-- What numpy documents for special arguments `x`: the result has value `r` (no restriction for other arguments). -/
def NumpySpecial : TFn → Value → Value → Prop
  | .sin, .nan, r | .sin, .pinf, r | .sin, .ninf, r => r = .nan
  | .cos, .nan, r | .cos, .pinf, r | .cos, .ninf, r => r = .nan
  | .exp, .nan, r => r = .nan
  | .exp, .pinf, r => r = .pinf
  | .exp, .ninf, r => r = .fin 0
  | .log, .nan, r => r = .nan
  | .log, .pinf, r => r = .pinf
  | .log, .ninf, r => r = .nan
  | .log, .fin v, r => if v = 0 then r = .ninf else if v < 0 then r = .nan else True
  | _, _, _ => True

instance (fn : TFn) : ∀ x r, Decidable (NumpySpecial fn x r) := fun x r => by
  cases fn <;> cases x <;> unfold NumpySpecial <;> infer_instance

/-- IEEE-754 sum when an operand is a NaN or an infinity (`none`: both operands finite). -/
def addSpecial : Value → Value → Option Value
  | .nan, _ => some .nan
  | _, .nan => some .nan
  | .pinf, .ninf => some .nan
  | .ninf, .pinf => some .nan
  | .pinf, _ => some .pinf
  | _, .pinf => some .pinf
  | .ninf, _ => some .ninf
  | _, .ninf => some .ninf
  | .fin _, .fin _ => none

/-- IEEE-754 product when an operand is a NaN or an infinity (`none`: both operands finite). -/
def mulSpecial : Value → Value → Option Value
  | .nan, _ => some .nan
  | _, .nan => some .nan
  | .pinf, .pinf => some .pinf
  | .pinf, .ninf => some .ninf
  | .ninf, .pinf => some .ninf
  | .ninf, .ninf => some .pinf
  | .pinf, .fin v => some (if v = 0 then .nan else if v < 0 then .ninf else .pinf)
  | .fin v, .pinf => some (if v = 0 then .nan else if v < 0 then .ninf else .pinf)
  | .ninf, .fin v => some (if v = 0 then .nan else if v < 0 then .pinf else .ninf)
  | .fin v, .ninf => some (if v = 0 then .nan else if v < 0 then .pinf else .ninf)
  | .fin _, .fin _ => none

end Pnumpy.Spec
