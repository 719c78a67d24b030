import Verif.Spec.Settings
/-
The settings functions exported to Python (src/pnumpy/_pnumpy.cpp:1766-1966) over the global settings
(src/pnumpy/_pnumpy.cpp:348, src/pnumpy/common.h:23-31) and the worker parameters
(src/atop/threads.h:406-419).  `int` values are unbounded integers here: the only arithmetic is
comparison, so nothing can overflow; `PyArg_ParseTuple("i")` raises for values outside `int`, such calls
have no effect and are not part of a history.
-/
namespace Pnumpy.Settings
open Pnumpy.Spec (SetCall Ret)

/-- `convert_dtype_to_atop` for the hooked dtypes 0..12 (src/pnumpy/_pnumpy.cpp:7-26;
see `Verif.Model.Dtypes`): the only two that coincide are long/long long. -/
def atype : Nat → Nat
  | 9 => 7
  | 10 => 8
  | 11 => 12
  | 12 => 13
  | d => d

/-- Machine and hook configuration.  `W`: `WorkerThreadCount` (threads.h:652, GetProcCount threads.cpp:662-686:
between 1 and 15).  `hooked name dtype`: `AddToDict` was called for this pair by `newinit`;
`dflt name`: the initial `MaxThreads` (3, or 7 for the trigonometric functions; _pnumpy.cpp:1366, 1417, 1471, 1533). -/
structure Cfg where
  W : Int
  hooked : String → Nat → Bool
  dflt : String → Int

/-- The global settings (src/pnumpy/_pnumpy.cpp:348, src/pnumpy/common.h:23-31, src/atop/threads.h:406-419). -/
structure St where
  /-- GlobalWorkerParams.FutexWakeCount -/
  wake : Int
  /-- GlobalWorkerParams.ZigZag -/
  zigzag : BitVec 32
  noThreading : Bool
  atop : Bool
  ledger : Bool
  recycler : Bool
  /-- `MaxThreads` of the LUT entry of (function, atop type) -/
  maxThreads : String → Nat → Int

/-- State after `initialize`: defaults of threads.h:414-417 and 685, _pnumpy.cpp:348, with
`StartWorkerThreads` (threads.h:891-894) having limited the wake count. -/
def init (c : Cfg) : St :=
  { wake := if (11 : Int) > c.W - 1 then c.W - 1 else 11, zigzag := 0, noThreading := false, atop := true, ledger := false, recycler := false, maxThreads := fun n _ => c.dflt n }

/-- `SetFutexWakeup` (threads.h:852-872), `FUTEX_WAKE_MAX` = 15. -/
def clampWake (c : Cfg) (k : Int) : Int :=
  let k := if k < 1 then 1 else k
  let k := if k > 15 then 15 else k
  if k > c.W - 1 then c.W - 1 else k

/-- One call: new state and value returned (src/pnumpy/_pnumpy.cpp:1766-1966). -/
def step (c : Cfg) (s : St) : SetCall → St × Ret
  -- thread_setworkers, _pnumpy.cpp:1872-1884
  | .setWorkers k => ({ s with wake := clampWake c k }, .int s.wake)
  -- thread_getworkers, _pnumpy.cpp:1886-1893
  | .getWorkers => (s, .int s.wake)
  -- thread_enable / thread_disable / thread_isenabled, _pnumpy.cpp:1849-1868
  | .threadEnable => ({ s with noThreading := false }, .none)
  | .threadDisable => ({ s with noThreading := true }, .none)
  | .threadIsEnabled => (s, .bool (!s.noThreading))
  -- atop_enable / atop_disable / atop_isenabled, _pnumpy.cpp:1766-1784
  | .atopEnable => ({ s with atop := true }, .none)
  | .atopDisable => ({ s with atop := false }, .none)
  | .atopIsEnabled => (s, .bool s.atop)
  -- ledger_*, _pnumpy.cpp:1903-1922
  | .ledgerEnable => ({ s with ledger := true }, .none)
  | .ledgerDisable => ({ s with ledger := false }, .none)
  | .ledgerIsEnabled => (s, .bool s.ledger)
  -- recycler_*, _pnumpy.cpp:1929-1948
  | .recyclerEnable => ({ s with recycler := true }, .none)
  | .recyclerDisable => ({ s with recycler := false }, .none)
  | .recyclerIsEnabled => (s, .bool s.recycler)
  -- thread_zigzag, _pnumpy.cpp:1955-1966
  | .zigzag => if s.zigzag = 0 then ({ s with zigzag := 3 }, .bool true) else ({ s with zigzag := 0 }, .bool false)
  -- atop_setworkers, _pnumpy.cpp:1825-1846
  | .atopSetWorkers n d k =>
      if s.atop then
        if c.hooked n d then
          if 0 ≤ k ∧ k < 64 then
            ({ s with maxThreads := fun n' a => if n' = n ∧ a = atype d then k else s.maxThreads n' a },
              .int (s.maxThreads n (atype d)))
          else (s, .bool false)
        else (s, .bool false)
      else (s, .bool false)
  -- SetWorkItem, threads.h:531-533
  | .operation => ({ s with zigzag := if s.zigzag ≠ 0 then s.zigzag ^^^ 1 else s.zigzag }, .none)

/-- State after a history (newest call first) (src/pnumpy/_pnumpy.cpp:1766-1966). -/
def run (c : Cfg) : List SetCall → St
  | [] => init c
  | call :: older => (step c (run c older) call).1

/-- What `call` returns after the history `h` (src/pnumpy/_pnumpy.cpp:1766-1966). -/
def returns (c : Cfg) (h : List SetCall) (call : SetCall) : Ret := (step c (run c h) call).2

/-! The ledger flag while an operation runs: `LEDGER_START` clears it and `LEDGER_END` sets it
(_pnumpy.cpp:351-355); in between numpy has released the interpreter lock, so another Python thread can
call `ledger_disable`. -/
inductive LedgerEv where
  | start | finish | disable
deriving DecidableEq

/-- The flag after one event (_pnumpy.cpp:351-355, 1903-1912). -/
def ledgerEv (_flag : Bool) : LedgerEv → Bool
  | .start => false
  | .finish => true
  | .disable => false

end Pnumpy.Settings
