import Verif.Model.Hooks
import Verif.Model.LedgerCalls
import Verif.Spec.Settings
/-
The dictionary of hooked functions (`gpUnaryDict`, src/pnumpy/_pnumpy.cpp:206, 1243-1270), the worker limits in the dispatch tables (`MaxThreads`, 249), the
functions that show and change them (`atop_info`, `atop_setworkers`, 1786-1846), and the limit a call of a numpy function passes to `WorkMain`.
A dictionary key is a name and a dtype number; negative numbers are in no key, so numbers are naturals here.  The value is the address of a table position,
stored as a Python integer and read back (1248, 1263); here it is the position itself.  The references `AddToDict` leaks are not modelled.
-/
namespace Pnumpy.WorkerLimit
open Pnumpy.Hooks
open Pnumpy.Spec (Call Ret)

/-- `str_ufunc_name` of the mapping line with this operation code (src/pnumpy/_pnumpy.cpp:90-169); sorts, argmax, argmin and fill are not entered in the dictionary. -/
def nameOf (o : Op) : Option String := (LedgerCalls.categories.flatten.find? fun p => decide (p.2 = o)).map (·.1)

/-- The limit `newinit` stores (src/pnumpy/_pnumpy.cpp:1373, 1429, 1484, 1544, 1577, 1588, 1604, 1612, 1621). -/
def startLimit : Tbl → Int
  | .binary | .compare | .unary => 3
  | .trig => 7
  | .sort | .argsort => 7
  | .argminmax | .arange => 3

/-- The state (src/pnumpy/_pnumpy.cpp:206, 268-348). -/
structure St where
  hooks : Hooks.St
  /-- `gpUnaryDict` -/
  dict : String → Nat → Option Key
  /-- `MaxThreads` of each table position -/
  max : Key → Int

/-- At import (src/pnumpy/_pnumpy.cpp:206, 268-348): no dictionary, zeroed tables. -/
def init : St := { hooks := Hooks.init, dict := fun _ _ => none, max := fun _ => 0 }

/-- `AddToDict(ufunc_name, dtype, pstUFunc)` (src/pnumpy/_pnumpy.cpp:1243-1249). -/
def addToDict (dict : String → Nat → Option Key) (name : String) (d : Nat) (k : Key) : String → Nat → Option Key :=
  fun n' d' => if n' = name ∧ d' = d then some k else dict n' d'

/-- One replacement and what is stored after it (src/pnumpy/_pnumpy.cpp:1362-1374, 1418-1430, 1472-1485, 1535-1545). -/
def hookOne (s : St) (h : Hook) : St :=
  { hooks := Hooks.hookOne s.hooks h
    dict := match nameOf h.1.op with
      | some n => addToDict s.dict n h.2 h.key
      | none => s.dict
    max := fun k => if k = h.key then startLimit h.1.tbl else s.max k }

/-- Python calls: those of `Spec.Call`, and `atop_setworkers(name, dtype, workers)` (src/pnumpy/_pnumpy.cpp:1825-1846). -/
inductive LCall where
  | call (c : Call)
  | setWorkers (name : String) (d : Nat) (k : Int)
deriving DecidableEq, Repr

/-- One Python call: new state and value returned (src/pnumpy/_pnumpy.cpp:1287-1776, 1825-1846). -/
def step (c : Cfg) (s : St) : LCall → St × Ret
  | .call .doInit =>
      if s.hooks.initialized = false ∧ c.avx2 = true then
        (c.hooks.foldl hookOne { s with hooks := { s.hooks with initialized := true, old := fun _ => none } }, .none)
      else (s, .none)
  | .call x => ({ s with hooks := Hooks.step c s.hooks x }, .none)
  -- atop_setworkers, _pnumpy.cpp:1825-1846 with GetFromDict, 1252-1267
  | .setWorkers n d k =>
      if s.hooks.atop = true then
        match s.dict n d with
        | some key =>
            if 0 ≤ k ∧ k < 64 then ({ s with max := fun q => if q = key then k else s.max q }, .int (s.max key))
            else (s, .bool false)
        | none => (s, .bool false)
      else (s, .bool false)

/-- State after a history (newest first) (src/pnumpy/_pnumpy.cpp:1287-1846). -/
def run (c : Cfg) : List LCall → St
  | [] => init
  | x :: older => (step c (run c older) x).1

/-- `atop_info(name, dtype)["MaxThreads"]` (src/pnumpy/_pnumpy.cpp:1791-1817); `none`: the function returned False. -/
def info (s : St) (n : String) (d : Nat) : Option Int := (s.dict n d).map s.max

/-- `pstUFunc->MaxThreads` as passed to `WorkMain` when numpy calls the loop of object `o` for dtype `d`
(src/pnumpy/_pnumpy.cpp:640, 697, 711, 789, 856, 923, 987); `none`: the loop is not pnumpy's. -/
def limit (s : St) (o : Obj) (d : Nat) : Option Int := match s.hooks.loops o d with
  | .stub k => some (s.max k)
  | _ => none

end Pnumpy.WorkerLimit
