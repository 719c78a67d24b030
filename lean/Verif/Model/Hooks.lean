import Verif.Model.Dtypes
import Verif.Spec.Hooks
/-
Installation of pnumpy's loops into numpy (`newinit`, src/pnumpy/_pnumpy.cpp:1287-1676), the decision
pnumpy / original loop at call time (e.g. _pnumpy.cpp:740-793, 816-824, 890-896, 954-960, 1019, 1063,
1109, 1126) and the `__getitem__` hook (_pnumpy.cpp:1682-1763).

A loop of numpy is identified by the function object and the dtype number of its input.  Whether a pair
(table entry, dtype) is hooked depends on the kernel getters; it is a parameter (`sel`), and so is the
point at which `newinit` may give up (`PyUFunc_ReplaceLoopBySignature` failing), so the theorems hold for
every choice of kernels.
-/
namespace Pnumpy.Hooks
open Pnumpy.Spec (Call)

/-- numpy function objects pnumpy touches. `invert` is also `np.bitwise_not`, `absolute` also `np.abs` (the names in the mapping tables src/pnumpy/_pnumpy.cpp:90-169). -/
inductive Obj where
  | add | subtract | multiply | trueDivide | floorDivide | minimum | maximum | power | remainder
  | logicalAnd | logicalOr | bitwiseAnd | bitwiseOr | bitwiseXor | leftShift | rightShift
  | equal | notEqual | greater | greaterEqual | less | lessEqual
  | absolute | signbit | fabs | invert | floor | ceil | trunc | rint | negative | positive | sign
  | sqrt | square | reciprocal | logicalNot | isinf | isnan | isfinite
  | sin | cos | tan | arcsin | arccos | arctan | sinh | cosh | tanh | arcsinh | arccosh | arctanh
  | cbrt | exp | exp2 | expm1 | log | log2 | log10 | log1p
  | sort (k : Fin 3) | argsort (k : Fin 3) | argmax | argmin | fill
deriving DecidableEq, Repr

/-- pnumpy's dispatch tables: `g_UFuncLUT`, `g_CompFuncLUT`, `g_UnaryFuncLUT`, `g_TrigFuncLUT`,
`g_SortFuncLUT`, `g_ArgSortFuncLUT`, `g_ArgMinMaxFuncLUT`, `g_ArangeFuncLUT` (_pnumpy.cpp:268-345). -/
inductive Tbl where
  | binary | compare | unary | trig | sort | argsort | argminmax | arange
deriving DecidableEq, Repr

/-- Operation codes (the row of the table), named as in src/atop/common_inc.h (the enums COMP_OPERATION, UNARY_OPERATION, BINARY_OPERATION, TRIG_OPERATION, SORT_MODE of src/atop/common_inc.h:250-370, 447). -/
inductive Op where
  | ADD | SUB | MUL | DIV | FLOORDIV | MIN | MAX | POWER | REMAINDER | LOGICAL_AND | LOGICAL_OR
  | BITWISE_AND | BITWISE_OR | BITWISE_XOR | BITWISE_LSHIFT | BITWISE_RSHIFT
  | CMP_EQ | CMP_NE | CMP_GT | CMP_GTE | CMP_LT | CMP_LTE
  | ABS | SIGNBIT | FABS | INVERT | FLOOR | CEIL | TRUNC | ROUND | NEGATIVE | POSITIVE | SIGN | RINT
  | SQRT | SQUARE | RECIPROCAL | LOGICAL_NOT | ISINF | ISNAN | ISFINITE | BITWISE_NOT
  | SIN | COS | TAN | ASIN | ACOS | ATAN | SINH | COSH | TANH | ASINH | ACOSH | ATANH
  | CBRT | EXP | EXP2 | EXPM1 | LOG | LOG2 | LOG10 | LOG1P
  | kind (k : Fin 3) | argmax | argmin | fill
deriving DecidableEq, Repr

/-- One line of a mapping: the table, the numpy object, the operation code (src/pnumpy/_pnumpy.cpp:89-169). -/
structure Entry where
  tbl : Tbl
  obj : Obj
  op : Op
deriving DecidableEq, Repr

/-- `gBinaryMapping`, _pnumpy.cpp:90-109. -/
def binaryMapping : List Entry :=
  [⟨.binary, .add, .ADD⟩, ⟨.binary, .subtract, .SUB⟩, ⟨.binary, .multiply, .MUL⟩, ⟨.binary, .trueDivide, .DIV⟩,
   ⟨.binary, .floorDivide, .FLOORDIV⟩, ⟨.binary, .minimum, .MIN⟩, ⟨.binary, .maximum, .MAX⟩, ⟨.binary, .power, .POWER⟩,
   ⟨.binary, .remainder, .REMAINDER⟩, ⟨.binary, .logicalAnd, .LOGICAL_AND⟩, ⟨.binary, .logicalOr, .LOGICAL_OR⟩,
   ⟨.binary, .bitwiseAnd, .BITWISE_AND⟩, ⟨.binary, .bitwiseOr, .BITWISE_OR⟩, ⟨.binary, .bitwiseXor, .BITWISE_XOR⟩,
   ⟨.binary, .leftShift, .BITWISE_LSHIFT⟩, ⟨.binary, .rightShift, .BITWISE_RSHIFT⟩]

/-- `gCompareMapping`, _pnumpy.cpp:111-117. -/
def compareMapping : List Entry :=
  [⟨.compare, .equal, .CMP_EQ⟩, ⟨.compare, .notEqual, .CMP_NE⟩, ⟨.compare, .greater, .CMP_GT⟩,
   ⟨.compare, .greaterEqual, .CMP_GTE⟩, ⟨.compare, .less, .CMP_LT⟩, ⟨.compare, .lessEqual, .CMP_LTE⟩]

/-- `gUnaryMapping`, _pnumpy.cpp:120-144. -/
def unaryMapping : List Entry :=
  [⟨.unary, .absolute, .ABS⟩, ⟨.unary, .signbit, .SIGNBIT⟩, ⟨.unary, .fabs, .FABS⟩, ⟨.unary, .invert, .INVERT⟩,
   ⟨.unary, .floor, .FLOOR⟩, ⟨.unary, .ceil, .CEIL⟩, ⟨.unary, .trunc, .TRUNC⟩, ⟨.unary, .rint, .ROUND⟩,
   ⟨.unary, .negative, .NEGATIVE⟩, ⟨.unary, .positive, .POSITIVE⟩, ⟨.unary, .sign, .SIGN⟩, ⟨.unary, .rint, .RINT⟩,
   ⟨.unary, .sqrt, .SQRT⟩, ⟨.unary, .square, .SQUARE⟩, ⟨.unary, .reciprocal, .RECIPROCAL⟩,
   ⟨.unary, .logicalNot, .LOGICAL_NOT⟩, ⟨.unary, .isinf, .ISINF⟩, ⟨.unary, .isnan, .ISNAN⟩,
   ⟨.unary, .isfinite, .ISFINITE⟩, ⟨.unary, .invert, .BITWISE_NOT⟩]

/-- `gTrigMapping`, _pnumpy.cpp:148-169. -/
def trigMapping : List Entry :=
  [⟨.trig, .sin, .SIN⟩, ⟨.trig, .cos, .COS⟩, ⟨.trig, .tan, .TAN⟩, ⟨.trig, .arcsin, .ASIN⟩, ⟨.trig, .arccos, .ACOS⟩,
   ⟨.trig, .arctan, .ATAN⟩, ⟨.trig, .sinh, .SINH⟩, ⟨.trig, .cosh, .COSH⟩, ⟨.trig, .tanh, .TANH⟩,
   ⟨.trig, .arcsinh, .ASINH⟩, ⟨.trig, .arccosh, .ACOSH⟩, ⟨.trig, .arctanh, .ATANH⟩, ⟨.trig, .cbrt, .CBRT⟩,
   ⟨.trig, .exp, .EXP⟩, ⟨.trig, .exp2, .EXP2⟩, ⟨.trig, .expm1, .EXPM1⟩, ⟨.trig, .log, .LOG⟩, ⟨.trig, .log2, .LOG2⟩,
   ⟨.trig, .log10, .LOG10⟩, ⟨.trig, .log1p, .LOG1P⟩]

/-- The sort, argsort, argmax, argmin and fill slots of a dtype, in the order of _pnumpy.cpp:1576-1625. -/
def otherMapping : List Entry :=
  [⟨.sort, .sort 0, .kind 0⟩, ⟨.sort, .sort 1, .kind 1⟩, ⟨.sort, .sort 2, .kind 2⟩,
   ⟨.argsort, .argsort 0, .kind 0⟩, ⟨.argsort, .argsort 1, .kind 1⟩, ⟨.argsort, .argsort 2, .kind 2⟩,
   ⟨.argminmax, .argmax, .argmax⟩, ⟨.argminmax, .argmin, .argmin⟩, ⟨.arange, .fill, .fill⟩]

/-- `dtypes`, _pnumpy.cpp:1288. -/
def dtypes : List Nat := [0, 1, 2, 3, 4, 5, 6, 7, 8, 9, 10, 11, 12]

/-- `trig_dtypes`, _pnumpy.cpp:1492. -/
def trigDtypes : List Nat := [11, 12]

/-- `convert_dtype_to_atop[dtype]` (the column of the table) (src/pnumpy/_pnumpy.cpp:7-26). -/
def atype (d : Nat) : Int := Dtypes.dtypeToAtop.getD d (-1)

/-- A position in a table: table, operation, atop type (index into the tables of src/pnumpy/_pnumpy.cpp:268-345). -/
structure Key where
  tbl : Tbl
  op : Op
  atype : Int
deriving DecidableEq, Repr

/-- What a function pointer can point to: numpy's own loop for an object and dtype, pnumpy's stub for a
table position, or the example loop `add_T<int32_t>` of `oldinit`. -/
inductive Loop where
  | numpy (o : Obj) (d : Nat)
  | stub (k : Key)
  | addT
deriving DecidableEq, Repr

/-- One replacement attempt: entry and dtype (src/pnumpy/_pnumpy.cpp:1318-1628). -/
abbrev Hook := Entry × Nat

/-- The table position of a replacement (src/pnumpy/_pnumpy.cpp:1352-1367). -/
def Hook.key (h : Hook) : Key := ⟨h.1.tbl, h.1.op, atype h.2⟩

/-- Sort/argsort/argminmax/fill are only replaced if not already pnumpy's (`!=` tests,
_pnumpy.cpp:1579, 1590, 1608, 1616, 1624); ufunc loops are replaced unconditionally. -/
def Hook.guarded (h : Hook) : Bool := match h.1.tbl with
  | .sort | .argsort | .argminmax | .arange => true
  | _ => false

/-- All replacements in the order `newinit` makes them (_pnumpy.cpp:1318-1628). -/
def allHooks : List Hook :=
  (binaryMapping ++ compareMapping ++ unaryMapping).flatMap (fun e => dtypes.map fun d => (e, d)) ++
    trigMapping.flatMap (fun e => trigDtypes.map fun d => (e, d)) ++
    dtypes.flatMap (fun d => otherMapping.map fun e => (e, d))

/-- Function pointers inside numpy, saved pointers and flags (src/pnumpy/_pnumpy.cpp:268-348). -/
structure St where
  /-- the function pointers inside numpy -/
  loops : Obj → Nat → Loop
  /-- `pOldFunc` of each table position; `none` is NULL -/
  old : Key → Option Loop
  atop : Bool
  noThreading : Bool
  initialized : Bool
  /-- `mp_subscript` of ndarray is pnumpy's GetItemHook -/
  subHooked : Bool
  /-- `g_Settings.NumpyGetItem != NULL` -/
  subSaved : Bool

/-- At import, before `initialize` (src/pnumpy/_pnumpy.cpp:268-348). -/
def init : St :=
  { loops := fun o d => .numpy o d, old := fun _ => none, atop := true, noThreading := false,
    initialized := false, subHooked := false, subSaved := false }

/-- One replacement (`PyUFunc_ReplaceLoopBySignature` and the stores after it, e.g. _pnumpy.cpp:1352-1367). -/
def hookOne (s : St) (h : Hook) : St :=
  if h.guarded = true ∧ s.loops h.1.obj h.2 = .stub h.key then s
  else { s with
    loops := fun o d => if o = h.1.obj ∧ d = h.2 then .stub h.key else s.loops o d
    old := fun k => if k = h.key then some (s.loops h.1.obj h.2) else s.old k }

/-- What `newinit` does depends on the machine and on numpy: `avx2` (`g_avx2`), `sel` (the getter found a
signature), `stop` (number of replacements after which an error return happens, `none` if there is none) (src/pnumpy/_pnumpy.cpp:1287-1676). -/
structure Cfg where
  avx2 : Bool
  sel : Hook → Bool
  stop : Option Nat
  /-- the table position has a kernel (`pBinaryFunc`/`pUnaryFunc` not NULL; for sorts etc. the library
  routine accepts the call) -/
  kernel : Key → Bool

/-- The replacements actually made (src/pnumpy/_pnumpy.cpp:1318-1628). -/
def Cfg.hooks (c : Cfg) : List Hook :=
  match c.stop with
  | some n => (allHooks.filter c.sel).take n
  | none => allHooks.filter c.sel

/-- One Python call.  `other`: ledger_*, recycler_*, any array operation.  hook_enable/hook_disable
assume that the temporary array can be allocated (src/pnumpy/_pnumpy.cpp:1287-1776). -/
def step (c : Cfg) (s : St) : Call → St
  -- newinit, _pnumpy.cpp:1296-1676
  | .doInit =>
      if s.initialized = false ∧ c.avx2 = true then c.hooks.foldl hookOne { s with initialized := true, old := fun _ => none }
      else s
  -- atop_enable, atop_disable, _pnumpy.cpp:1766-1776
  | .atopEnable => { s with atop := true }
  | .atopDisable => { s with atop := false }
  -- thread_enable, thread_disable, _pnumpy.cpp:1849-1859
  | .threadEnable => { s with noThreading := false }
  | .threadDisable => { s with noThreading := true }
  -- hook_enable, _pnumpy.cpp:1715-1741
  | .hookEnable => if s.subSaved = false then { s with subSaved := true, subHooked := true } else s
  -- hook_disable, _pnumpy.cpp:1746-1763
  | .hookDisable => if s.subSaved = true then { s with subSaved := false, subHooked := false } else s
  | .other => s

/-- State after a history (newest first) (src/pnumpy/_pnumpy.cpp:1287-1776). -/
def run (c : Cfg) : List Call → St
  | [] => init
  | x :: older => step c (run c older) x

/-- `oldinit(name)`, _pnumpy.cpp:1197-1237: the int32 loop is replaced, nothing is saved. -/
def oldinit (s : St) (o : Obj) : St :=
  { s with loops := fun o' d => if o' = o ∧ d = 5 then .addT else s.loops o' d }

/-- What finally computes the elements (outcome of the calls of src/pnumpy/_pnumpy.cpp:740-793). -/
inductive Ran where
  | pnumpy (k : Key)
  | numpy (o : Obj) (d : Nat)
  | addT
deriving DecidableEq, Repr

/-- Following a call: a stub runs its kernel if pnumpy is enabled and there is one, otherwise it calls
the saved loop.  (A NULL saved loop is a crash: no result; a cycle is an endless recursion: no result.) (src/pnumpy/_pnumpy.cpp:740-793, 816-824, 890-896, 954-960, 1019, 1063, 1109, 1126). -/
inductive Runs (c : Cfg) (s : St) : Loop → Ran → Prop where
  | numpy (o d) : Runs c s (.numpy o d) (.numpy o d)
  | addT : Runs c s .addT .addT
  | kernel (k) (h : s.atop = true ∧ c.kernel k = true) : Runs c s (.stub k) (.pnumpy k)
  | punt (k l r) (h : ¬ (s.atop = true ∧ c.kernel k = true)) (hold : s.old k = some l) (hr : Runs c s l r) : Runs c s (.stub k) r

/-- The work of a call on `n` elements is split among threads (`GetWorkItem`, threads.h:1056-1061,
called by the stubs whether or not pnumpy is enabled). -/
def split (s : St) (o : Obj) (d n : Nat) : Bool := match s.loops o d with
  | .stub _ => decide (65536 ≤ n) && !s.noThreading
  | _ => false

end Pnumpy.Hooks
