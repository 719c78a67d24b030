import Verif.Model.Hooks
import Verif.Model.Ledger
import Verif.Model.WorkItem
/-
Hooked calls with the ledger on, made by several threads at the same time (numpy releases the GIL inside ufunc loops and sorts): the test of
`g_Settings.LedgerEnabled`, `LEDGER_START`, the recursive call, `LEDGER_END` (src/pnumpy/_pnumpy.cpp:351-355, 638-640, 795-800 and the same lines of the other
seven entries), `LedgerRecord`/`LedgerRecord2` (src/pnumpy/ledger.cpp:219-270), `ledger_enable`/`ledger_disable` (_pnumpy.cpp:1904-1913); and the tables of
names the record is printed with (ledger.cpp:129-141, 195-215; _pnumpy.cpp:90-212).
A call is a number.  Every access to a shared variable is one step (the steps of one thread appear in program order, as on x86 for these accesses:
a delayed store only makes the step later).  The operation itself is one step; the times and the `printf` are left out.
-/
namespace Pnumpy.LedgerCalls
open Pnumpy.Work (upd)
open Pnumpy.Ledger (SIZE slotOf)

/-- The fields `LedgerRecord` stores, in this order: ArrayGroup, ArrayOp, AType, StrCatName, StrOpName, ArrayLength1, ArrayLength2 (src/pnumpy/ledger.cpp:228-243;
258-268 for `LedgerRecord2`). -/
abbrev FIELDS : Nat := 7

/-- Where a thread is in a hooked call `c`; `d` is the number of `LEDGER_END`s still to come, that is the depth of the recursion (src/pnumpy/_pnumpy.cpp:638-800).
`test`: before `if (!LedgerEnabled)` (640); `on`: before `LEDGER_START` (796); `work`: in the operation itself (641-792); `unwind`: the (recursive) call has
returned; `tail`: before reading `Tail` (src/pnumpy/ledger.cpp:187); `inc i`: `Tail` was `i`, before storing `i+1`; `fill i k`: before storing field `k`. -/
inductive Thread where
  | idle
  | test (d c : Nat)
  | on (d c : Nat)
  | work (d c : Nat)
  | unwind (d c : Nat)
  | tail (d c : Nat)
  | inc (d c : Nat) (i : BitVec 64)
  | fill (d c : Nat) (i : BitVec 64) (k : Nat)
deriving DecidableEq

/-- The flag, the ring (each field: which call wrote it), the threads; `outside`: a store missed the ring (src/pnumpy/ledger.cpp:163-192, src/pnumpy/common.h:25).
`began` and `ran` are histories for the theorems: (thread, call) at the start of a call and when its operation is carried out. -/
structure St where
  flag : Bool
  tail : BitVec 64
  queue : Nat → Nat → Option Nat
  outside : Bool
  thread : Nat → Thread
  began : List (Nat × Nat)
  ran : List (Nat × Nat)

/-- After `LedgerInit` (src/pnumpy/ledger.cpp:173-182; the flag is 0, src/pnumpy/_pnumpy.cpp:348). -/
def init : St :=
  { flag := false, tail := 0, queue := fun _ _ => none, outside := false, thread := fun _ => .idle, began := [], ran := [] }

/-- Some thread calls `ledger_enable` or `ledger_disable` (src/pnumpy/_pnumpy.cpp:1904-1913); thread `t` starts the hooked call `c`; thread `t` takes its next step. -/
inductive Act where
  | set (b : Bool)
  | start (t c : Nat)
  | go (t : Nat)
deriving DecidableEq

/-- Store field `k` of the entry at `RING_BUFFER_MASK & i` (src/pnumpy/ledger.cpp:187, 228-243). -/
def store (s : St) (i : BitVec 64) (k c : Nat) : St :=
  if slotOf i < SIZE then { s with queue := fun a b => if a = slotOf i ∧ b = k then some c else s.queue a b }
  else { s with outside := true }

/-- One step (src/pnumpy/_pnumpy.cpp:351-355, 638-800; src/pnumpy/ledger.cpp:186-188, 219-270). -/
def step (s : St) : Act → St
  | .set b => { s with flag := b }
  | .start t c =>
    match s.thread t with
    | .idle => { s with thread := upd s.thread t (.test 0 c), began := s.began ++ [(t, c)] }
    | _ => s
  | .go t =>
    match s.thread t with
    | .idle => s
    | .test d c => { s with thread := upd s.thread t (if s.flag then .on d c else .work d c) }
    | .on d c => { s with flag := false, thread := upd s.thread t (.test (d + 1) c) }
    | .work d c => { s with ran := s.ran ++ [(t, c)], thread := upd s.thread t (.unwind d c) }
    | .unwind 0 _ => { s with thread := upd s.thread t .idle }
    | .unwind (d + 1) c => { s with flag := true, thread := upd s.thread t (.tail d c) }
    | .tail d c => { s with thread := upd s.thread t (.inc d c s.tail) }
    | .inc d c i => { s with tail := i + 1, thread := upd s.thread t (.fill d c i 0) }
    | .fill d c i k =>
      let s' := store s i k c
      { s' with thread := upd s'.thread t (if k + 1 < FIELDS then .fill d c i (k + 1) else .unwind d c) }

/-- The state after a history (of the calls of src/pnumpy/_pnumpy.cpp:638-800 and 1904-1913). -/
def exec (l : List Act) : St := l.foldl step init

open Pnumpy.Hooks (Op Tbl)

/-- The value of an operation code (src/atop/common_inc.h:250-366). -/
def opCode : Op → Nat
  | .CMP_EQ => 0 | .CMP_NE => 1 | .CMP_LT => 2 | .CMP_GT => 3 | .CMP_LTE => 4 | .CMP_GTE => 5
  | .ABS => 1 | .SIGNBIT => 2 | .FABS => 3 | .INVERT => 4 | .FLOOR => 5 | .CEIL => 6 | .TRUNC => 7 | .ROUND => 8 | .NEGATIVE => 9 | .POSITIVE => 10
  | .SIGN => 11 | .RINT => 12 | .SQRT => 15 | .SQUARE => 16 | .RECIPROCAL => 17 | .LOGICAL_NOT => 18 | .ISINF => 19 | .ISNAN => 20 | .ISFINITE => 21
  | .BITWISE_NOT => 28
  | .ADD => 1 | .SUB => 2 | .MUL => 3 | .MIN => 5 | .MAX => 6 | .FLOORDIV => 9 | .POWER => 10 | .REMAINDER => 11 | .DIV => 13 | .LOGICAL_AND => 16
  | .LOGICAL_OR => 18 | .BITWISE_LSHIFT => 19 | .BITWISE_RSHIFT => 20 | .BITWISE_AND => 21 | .BITWISE_XOR => 22 | .BITWISE_OR => 23
  | .SIN => 1 | .COS => 2 | .TAN => 3 | .ASIN => 4 | .ACOS => 5 | .ATAN => 6 | .SINH => 7 | .COSH => 8 | .TANH => 9 | .ASINH => 10 | .ACOSH => 11
  | .ATANH => 12 | .LOG => 13 | .LOG2 => 14 | .LOG10 => 15 | .EXP => 16 | .EXP2 => 17 | .EXPM1 => 18 | .LOG1P => 19 | .CBRT => 20
  | .kind k => k.val | .argmax => 0 | .argmin => 1 | .fill => 0

/-- The names and operation codes of the categories Binary, Unary, Compare, TrigLog, in the order of `gOpCategory` (src/pnumpy/_pnumpy.cpp:90-169, 202-206).
The other five categories go through `LedgerRecord2`, which does not look a name up. -/
def categories : List (List (String × Op)) :=
  [[("add", .ADD), ("subtract", .SUB), ("multiply", .MUL), ("true_divide", .DIV), ("floor_divide", .FLOORDIV), ("minimum", .MIN), ("maximum", .MAX),
    ("power", .POWER), ("remainder", .REMAINDER), ("logical_and", .LOGICAL_AND), ("logical_or", .LOGICAL_OR), ("bitwise_and", .BITWISE_AND),
    ("bitwise_or", .BITWISE_OR), ("bitwise_xor", .BITWISE_XOR), ("left_shift", .BITWISE_LSHIFT), ("right_shift", .BITWISE_RSHIFT)],
   [("abs", .ABS), ("signbit", .SIGNBIT), ("fabs", .FABS), ("invert", .INVERT), ("floor", .FLOOR), ("ceil", .CEIL), ("trunc", .TRUNC), ("rint", .ROUND),
    ("negative", .NEGATIVE), ("positive", .POSITIVE), ("sign", .SIGN), ("rint", .RINT), ("sqrt", .SQRT), ("square", .SQUARE), ("reciprocal", .RECIPROCAL),
    ("logical_not", .LOGICAL_NOT), ("isinf", .ISINF), ("isnan", .ISNAN), ("isfinite", .ISFINITE), ("bitwise_not", .BITWISE_NOT)],
   [("equal", .CMP_EQ), ("not_equal", .CMP_NE), ("greater", .CMP_GT), ("greater_equal", .CMP_GTE), ("less", .CMP_LT), ("less_equal", .CMP_LTE)],
   [("sin", .SIN), ("cos", .COS), ("tan", .TAN), ("arcsin", .ASIN), ("arccos", .ACOS), ("arctan", .ATAN), ("sinh", .SINH), ("cosh", .COSH), ("tanh", .TANH),
    ("arcsinh", .ASINH), ("arccosh", .ACOSH), ("arctanh", .ATANH), ("cbrt", .CBRT), ("exp", .EXP), ("exp2", .EXP2), ("expm1", .EXPM1), ("log", .LOG),
    ("log2", .LOG2), ("log10", .LOG10), ("log1p", .LOG1P)]]

/-- The category passed to `LEDGER_END` (src/pnumpy/_pnumpy.cpp:798, 864, 930, 994; src/pnumpy/common.h:40-51). -/
def catOf : Tbl → Option Nat
  | .binary => some 0 | .unary => some 1 | .compare => some 2 | .trig => some 3 | _ => none

/-- `MAX_FUNCOP` (src/pnumpy/ledger.cpp:195). -/
def MAX_FUNCOP : Nat := 40

/-- A row of `g_str_ufunc_name` after `LedgerInit`: later entries overwrite earlier ones (src/pnumpy/ledger.cpp:204-214). -/
def nameRow (ops : List (String × Op)) : List (Option String) :=
  ops.foldl (fun row p => if opCode p.2 < MAX_FUNCOP then row.set (opCode p.2) (some p.1) else row) (List.replicate MAX_FUNCOP none)

/-- `g_str_ufunc_name[op_category][funcop]` (src/pnumpy/ledger.cpp:240): `none` is a read outside the array, `some none` the NULL pointer. -/
def opName (cat funcop : Nat) : Option (Option String) := (categories[cat]?).bind fun ops => (nameRow ops)[funcop]?

/-- `gStrAtopTypes` (src/pnumpy/ledger.cpp:130-141). -/
def typeNames : List String :=
  ["bool", "int8", "uint8", "int16", "uint16", "int32", "uint32", "int64", "uint64", "int128", "uint128", "float16", "float32", "float64", "float80",
   "cfloat16", "cfloat32", "cfloat64", "cfloat80", "string", "unicode", "void", "last"]

/-- `dimensions[0]`, `dimensions[1]` (src/pnumpy/ledger.cpp:241-242); `none`: a read outside the array. -/
def lengths (dimensions : List Int) : Option (Int × Int) := do
  let a ← dimensions[0]?
  let b ← dimensions[1]?
  pure (a, b)

end Pnumpy.LedgerCalls
