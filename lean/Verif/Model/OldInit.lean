/-
The example loop `add_T<int32_t>` (src/pnumpy/_pnumpy.cpp:1156-1194) and the choice of the loop it replaces (`oldinit`, 1197-1237).
Memory: 32-bit cells at byte addresses; cells at different addresses are assumed not to overlap (operands are aligned).
-/
namespace Pnumpy.OldInit

/-- Memory of int32 elements (src/pnumpy/_pnumpy.cpp:1169, 1188: `*(T *)ip2`). -/
abbrev Mem := Int → BitVec 32

/-- The reduce branch: a local sum, stored at the end (src/pnumpy/_pnumpy.cpp:1162-1176).  `sumLoop` is the loop. -/
def sumLoop (m : Mem) (is2 : Int) : Nat → Int → BitVec 32 → BitVec 32
  | 0, _, io1 => io1
  | n + 1, ip2, io1 => sumLoop m is2 n (ip2 + is2) (io1 + m ip2)

/-- The element loop (src/pnumpy/_pnumpy.cpp:1187-1192). -/
def addLoop (is1 is2 os1 : Int) : Nat → Int → Int → Int → Mem → Mem
  | 0, _, _, _, m => m
  | n + 1, ip1, ip2, op1, m => addLoop is1 is2 os1 n (ip1 + is1) (ip2 + is2) (op1 + os1) fun a => if a = op1 then m ip1 + m ip2 else m a

/-- `add_T<int32_t>`: `none` if an entry of `args` or `steps` is read that the caller did not provide.  `IS_BINARY_REDUCE` (src/pnumpy/common.h:124-126) reads
entries 0 and 2 of both (src/pnumpy/_pnumpy.cpp:1156-1194). -/
def addT (args steps : List Int) (n : Nat) (m : Mem) : Option Mem := do
  let a0 ← args[0]?
  let a2 ← args[2]?
  let s0 ← steps[0]?
  let s2 ← steps[2]?
  let a1 ← args[1]?
  let s1 ← steps[1]?
  if a0 = a2 ∧ s0 = s2 ∧ s0 = 0 then
    pure fun a => if a = a0 then sumLoop m s1 n a1 (m a0) else m a
  else pure (addLoop s0 s1 s2 n a0 a1 a2 m)

/-- What numpy passes to the loop of a function: its inputs and its output (numpy's calling convention; src/pnumpy/_pnumpy.cpp:1157). -/
structure Operands where
  inputs : List (Int × Int)
  out : Int × Int

/-- `args`, pointers of the operands (src/pnumpy/_pnumpy.cpp:1157). -/
def Operands.args (o : Operands) : List Int := (o.inputs ++ [o.out]).map (·.1)
/-- `steps`, strides of the operands (src/pnumpy/_pnumpy.cpp:1157). -/
def Operands.steps (o : Operands) : List Int := (o.inputs ++ [o.out]).map (·.2)

/-- `PyUFunc_ReplaceLoopBySignature` with `signature = {INT32, INT32, INT32}` (src/pnumpy/_pnumpy.cpp:1202, 1224-1226): numpy compares as many entries as
the function has operands, and replaces the first loop that agrees; `types` are the dtypes of a loop's operands. -/
def replaces (types : List Nat) : Bool := types.length ≤ 3 && types.all (· == 5)

end Pnumpy.OldInit
