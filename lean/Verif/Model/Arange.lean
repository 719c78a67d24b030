import Verif.Model.Chunks
/-
Model of src/atop/fill.cpp (ArangeFill) as called by AtopArangeMathFunction (src/pnumpy/_pnumpy.cpp 1122-1150): the hooked `fill` function of
np.arange. numpy has stored the first two values in the buffer; the length is at least 3 then.

Every chunk is an agent that first reads element 0 and element 1 and then writes its own elements, while the other chunks do the same:
reads and writes of single elements are the atomic steps.
-/
namespace Pnumpy.Arange
open Pnumpy.Chunks

variable {α : Type}

/-- The arithmetic of ArangeFillType (fill.cpp 68-75) for one element type: `delta -= first` and `(TYPE)(first + i * delta)`. -/
structure Ops (α : Type) where
  sub : α → α → α
  elem : α → Nat → α → α

/-- Where a call of ArangeFillType is: before line 68, before line 69 (with `first`), in the loop of line 74. -/
inductive PC (α : Type) where
  | start
  | gotFirst (first : α)
  | fill (first delta : α) (i : Nat)

/-- The buffer, and where the call for each chunk is (src/atop/fill.cpp:63-76 run once per chunk, 111-128). -/
structure State (α : Type) where
  mem : List α
  pc : Nat → PC α

/-- `f` changed at `k` (helper for the states of the calls of src/atop/fill.cpp:111-128). -/
def upd {γ : Type} (f : Nat → γ) (k : Nat) (v : γ) : Nat → γ := fun j => if j = k then v else f j

/-- One step of the call for chunk `k` = `(start, len)`: fill.cpp 68, 69-71 and one round of 74-76. A chunk that has not been picked up yet is at
`start`. `none` is an access outside the buffer. -/
inductive Step (ops : Ops α) (calls : List (Nat × Nat)) : State α → Option (State α) → Prop where
  | read0 {s : State α} {k st ln : Nat} : calls[k]? = some (st, ln) → s.pc k = .start →
      Step ops calls s (s.mem[0]?.map fun f => { s with pc := upd s.pc k (.gotFirst f) })
  | read1 {s : State α} {k st ln : Nat} {f : α} : calls[k]? = some (st, ln) → s.pc k = .gotFirst f →
      Step ops calls s (s.mem[1]?.map fun n => { s with pc := upd s.pc k (.fill f (ops.sub n f) st) })
  | write {s : State α} {k st ln i : Nat} {f d : α} : calls[k]? = some (st, ln) → s.pc k = .fill f d i → i < st + ln →
      Step ops calls s ((Pnumpy.Sort.put s.mem i (ops.elem f i d)).map fun m => { mem := m, pc := upd s.pc k (.fill f d (i + 1)) })

/-- States reached by any interleaving (of the calls of src/atop/fill.cpp:63-76). -/
inductive Reach (ops : Ops α) (calls : List (Nat × Nat)) (s0 : State α) : State α → Prop where
  | refl : Reach ops calls s0 s0
  | step {s s' : State α} : Reach ops calls s0 s → Step ops calls s (some s') → Reach ops calls s0 s'

/-- Every call has returned (src/atop/fill.cpp:128-133). -/
def Done (calls : List (Nat × Nat)) (s : State α) : Prop :=
  ∀ k st ln, calls[k]? = some (st, ln) → ∃ f d, s.pc k = .fill f d (st + ln)

/-- The state in which the chunks are handed out: fill.cpp 111-128. -/
def begin (mem : List α) : State α := { mem, pc := fun _ => .start }

/-- `out` can be the buffer after the call of ArangeFill on `mem`, fill.cpp 98-133. -/
def Result (ops : Ops α) (threaded : Bool) (mem out : List α) : Prop :=
  ∃ calls s, Calls mem.length threaded calls ∧ Reach ops calls (begin mem) s ∧ Done calls s ∧ out = s.mem

/-- ArangeFill can access memory outside the buffer (src/atop/fill.cpp:98-133). -/
def Faults (ops : Ops α) (threaded : Bool) (mem : List α) : Prop :=
  ∃ calls s, Calls mem.length threaded calls ∧ Reach ops calls (begin mem) s ∧ Step ops calls s none

/-- The integer types of `w` bits, fill.cpp 87-90: operands are converted to 64 bits (`i` is int64_t), the result is converted back. Signed overflow of
int64 taken as wrapping. -/
def intOps (w : Nat) (signed : Bool) : Ops (BitVec w) where
  sub n f := n - f
  elem f i d :=
    let ext (x : BitVec w) : BitVec 64 := if signed then x.signExtend 64 else x.setWidth 64
    (ext f + BitVec.ofNat 64 i * ext d).setWidth w

/-- Rounding of an integer to the nearest number with `p` significant bits, ties to even (IEEE rounding of the float operations in src/atop/fill.cpp:68-75). -/
def rnd (p : Nat) (n : Int) : Int :=
  let a := n.natAbs
  if a < 2 ^ p then n
  else
    let e := a.log2 + 1 - p
    let q := a / 2 ^ e
    let r := a % 2 ^ e
    let q' := if 2 ^ e < 2 * r ∨ (2 * r = 2 ^ e ∧ q % 2 = 1) then q + 1 else q
    n.sign * (q' * 2 ^ e : Nat)

/-- The float types with `p` significant bits (24: float, 53: double), restricted to integral values below the overflow threshold: sums,
differences and products of integral values are integral, so only rounding is left of IEEE arithmetic. fill.cpp 68-75 with TYPE = float, double;
`i` is converted to TYPE first. -/
def floatOps (p : Nat) : Ops Int where
  sub n f := rnd p (n - f)
  elem f i d := rnd p (f + rnd p (rnd p i * d))

end Pnumpy.Arange
