import Verif.Model.WorkerLimit
/-
`initialize()` with its outcome, and the dictionary of hooked functions as the Python object that `atop_info()` hands out
(`gpUnaryDict`, src/pnumpy/_pnumpy.cpp:206, 1243-1267, 1317, 1786-1846).  The dictionary's values are Python integers holding addresses of table
positions; Python code that got the dictionary can change it.  Keys other than (string, integer) pairs are never looked up and are not modelled.
-/
namespace Pnumpy.InfoDict
open Pnumpy.Hooks

/-- A value in the dictionary: a Python integer, or an object that is not an integer (src/pnumpy/_pnumpy.cpp:1243-1267). -/
inductive DVal where
  | int (v : Int)
  | other
deriving DecidableEq, Repr

/-- Where the table positions `g_UFuncLUT[..][..]` etc. are in memory (src/pnumpy/_pnumpy.cpp:268-300): `addr` is `&g_...LUT[op][atype]`, `keyAt` its inverse: distinct
positions used by a replacement have distinct user-space addresses. -/
structure Layout where
  addr : Key → Int
  keyAt : Int → Option Key
  keyAt_addr : ∀ h ∈ allHooks, keyAt (addr h.key) = some h.key
  addr_keyAt : ∀ p k, keyAt p = some k → addr k = p
  user : ∀ h ∈ allHooks, 0 < addr h.key ∧ addr h.key < 2 ^ 63

/-- The state (src/pnumpy/_pnumpy.cpp:206, 268-348); `dict = none` is `gpUnaryDict == NULL`. -/
structure St where
  hooks : Hooks.St
  dict : Option (String → Int → Option DVal)
  max : Key → Int

/-- At import (src/pnumpy/_pnumpy.cpp:206, 268-348). -/
def init : St := { hooks := Hooks.init, dict := none, max := fun _ => 0 }

/-- Setting one item of the dictionary: `PyDict_SetItem` (src/pnumpy/_pnumpy.cpp:1248), or `d[(name, dtype)] = v` in Python; `none`: `del`. -/
def setItem (f : String → Int → Option DVal) (n : String) (d : Int) (v : Option DVal) : String → Int → Option DVal :=
  fun n' d' => if n' = n ∧ d' = d then v else f n' d'

/-- One replacement (src/pnumpy/_pnumpy.cpp:1362-1374, 1418-1430, 1472-1485, 1535-1545) with `AddToDict` (1243-1249). -/
def hookOne (M : Layout) (s : St) (h : Hook) : St :=
  { hooks := Hooks.hookOne s.hooks h
    dict := match WorkerLimit.nameOf h.1.op, s.dict with
      | some n, some f => some (setItem f n h.2 (some (.int (M.addr h.key))))
      | _, _ => s.dict
    max := fun k => if k = h.key then WorkerLimit.startLimit h.1.tbl else s.max k }

/-- An error return of `newinit` comes before the last replacement (src/pnumpy/_pnumpy.cpp:1334-1336, 1364-1366, 1420-1422, 1474-1476, 1537-1539). -/
def fails (c : Cfg) : Bool := match c.stop with
  | some n => decide (n < (allHooks.filter c.sel).length)
  | none => false

/-- What Python sees of a call (src/pnumpy/_pnumpy.cpp:1786-1846): `wild` is an access through a pointer that is not a table position, `systemError` a NULL result without an exception. -/
inductive Out where
  | none | bool (b : Bool) | int (v : Int)
  | dict            -- the dictionary itself
  | info (max : Int)  -- the description of one function; its "MaxThreads"
  | raises | systemError | wild
deriving DecidableEq, Repr

/-- Python operations: calls of pnumpy, and changing the dictionary returned by `atop_info()` (src/pnumpy/_pnumpy.cpp:1287, 1766-1776, 1791-1846). -/
inductive PCall where
  | doInit | atopEnable | atopDisable
  | infoAll | info (n : String) (d : Int) | setWorkers (n : String) (d : Int) (k : Int)
  | put (n : String) (d : Int) (v : DVal) | del (n : String) (d : Int)
deriving DecidableEq, Repr

/-- `GetFromDict` (src/pnumpy/_pnumpy.cpp:1252-1267): the pointer, 0 for NULL; `PyLong_AsLongLong` gives -1 for what does not fit 64 bits or is no integer. -/
def getFromDict (s : St) (n : String) (d : Int) : Int := match s.dict with
  | none => 0
  | some f => match f n d with
    | none => 0
    | some (.int v) => if -2 ^ 63 ≤ v ∧ v < 2 ^ 63 then v else -1
    | some .other => -1

/-- One Python operation: new state and what Python sees (src/pnumpy/_pnumpy.cpp:1287-1676, 1766-1776, 1791-1846).  A `wild` access ends the process or corrupts
memory: the state after it is of no interest.  The arguments of `atop_info`/`atop_setworkers` have the right types. -/
def step (M : Layout) (c : Cfg) (s : St) : PCall → St × Out
  -- newinit, _pnumpy.cpp:1287-1676
  | .doInit =>
      if s.hooks.initialized = false ∧ c.avx2 = true then
        (c.hooks.foldl (hookOne M) { s with hooks := { s.hooks with initialized := true, old := fun _ => none }, dict := some fun _ _ => none },
          if fails c then .raises else .none)
      else (s, if c.avx2 then .none else .raises)
  | .atopEnable => ({ s with hooks := { s.hooks with atop := true } }, .none)
  | .atopDisable => ({ s with hooks := { s.hooks with atop := false } }, .none)
  -- atop_info(), _pnumpy.cpp:1797-1800
  | .infoAll => (s, match s.dict with | none => .systemError | some _ => .dict)
  -- atop_info(name, dtype), _pnumpy.cpp:1801-1820
  | .info n d =>
      let p := getFromDict s n d
      (s, if p = 0 then .bool false else match M.keyAt p with | none => .wild | some k => .info (s.max k))
  -- atop_setworkers, _pnumpy.cpp:1825-1846
  | .setWorkers n d k =>
      if s.hooks.atop = true then
        let p := getFromDict s n d
        if p = 0 then (s, .bool false)
        else if 0 ≤ k ∧ k < 64 then
          match M.keyAt p with
          | none => (s, .wild)
          | some q => ({ s with max := fun q' => if q' = q then k else s.max q' }, .int (s.max q))
        else (s, .bool false)
      else (s, .bool false)
  | .put n d v => ({ s with dict := s.dict.map fun f => setItem f n d (some v) }, .none)
  | .del n d => ({ s with dict := s.dict.map fun f => setItem f n d none }, .none)

/-- State after a history (newest first) (src/pnumpy/_pnumpy.cpp:1287-1846). -/
def run (M : Layout) (c : Cfg) : List PCall → St
  | [] => init
  | x :: older => (step M c (run M c older) x).1

end Pnumpy.InfoDict
