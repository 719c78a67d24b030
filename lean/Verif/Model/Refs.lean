import Verif.Spec.Refs
/-
Reference counting of the functions exported by the module: what each call does to the reference counts of Python objects
(src/pnumpy/_pnumpy.cpp:1196-1267, 1287-1960; getitem.cpp:1038-1192; sorting.cpp:521-576; common.cpp:159-211, 315-334, 429-445).
lexsort is C63.  Buffers that are not Python objects are C97, C98; the one that getitem forgets is included (`new`).
-/
namespace Pnumpy.Refs
open Pnumpy.Spec.Refs

/-- Returning an existing object: `Py_INCREF(Py_None); return Py_None;` etc. (RETURN_NONE, RETURN_TRUE, RETURN_FALSE of src/pnumpy/common.h; _pnumpy.cpp:1798-1799). -/
def returnOld (g : Glob) : List Act := [.take (.glob g), .give (.glob g)]

/-- Returning a new object: `return PyLong_FromLong(..)` etc. (src/pnumpy/_pnumpy.cpp:1840, 1879, 1889, 1898; ledger.cpp:101, 110). -/
def returnNew (i : Nat) : List Act := [.new i, .give (.made i)]

/-- The tuple `(name, dtype)` as objects `i`, `i+1`, `i+2` (src/pnumpy/_pnumpy.cpp:1245-1247, 1256-1258). -/
def makeKey (i : Nat) : List Act := [.new i, .new (i + 1), .steal (.made (i + 1)), .new (i + 2), .steal (.made (i + 2))]

/-- `AddToDict` (src/pnumpy/_pnumpy.cpp:1243-1249), using objects `i .. i+3`. -/
def addToDict (i : Nat) : List Act := makeKey i ++ [.new (i + 3), .store (.made i), .store (.made (i + 3))]

/-- `GetFromDict` (src/pnumpy/_pnumpy.cpp:1252-1267), using objects `i .. i+2`; freeing the tuple releases its two items. -/
def getFromDict (i : Nat) : List Act := makeKey i ++ [.drop (.made i), .release (.made (i + 1)), .release (.made (i + 2))]

/-- The description `atop_info(name, dtype)` builds (src/pnumpy/_pnumpy.cpp:1806-1813): a dictionary (object 3) with six values (objects 4 to 9), each put in with
`PyDict_SetItemString`, which does not take over the reference. -/
def describe : List Act := .new 3 :: ([4, 5, 6, 7, 8, 9].flatMap fun i => [.new i, .store (.made i)]) ++ [.give (.made 3)]

/-- One ufunc of `newinit` (src/pnumpy/_pnumpy.cpp:1328-1336, 1352-1375; 1383-1546 alike): fetch it, then enter `k` element types in the dictionary. -/
def takeOver (f : String) (i : Nat) : Nat → List Act
  | 0 => [.take (.glob (.ufunc f))]
  | k + 1 => takeOver f i k ++ addToDict (i + 4 * k)

/-- All ufuncs of `newinit` (src/pnumpy/_pnumpy.cpp:1318-1546): the name and the number of types of each. -/
def takeOverAll (i : Nat) : List (String × Nat) → List Act
  | [] => []
  | (f, k) :: fs => takeOver f i k ++ takeOverAll (i + 4 * k) fs

/-- `newinit` when it does its work (src/pnumpy/_pnumpy.cpp:1296-1668): numpy, setbufsize with its argument (objects 0, 1) and its result (2), the dictionary (3),
13 arrays (4 to 16), the ufuncs. -/
def initActs (fs : List (String × Nat)) : List Act :=
  [.take (.glob .numpy), .take (.glob .setbufsize), .new 0, .new 1, .steal (.made 1), .new 2, .drop (.made 0), .release (.made 1), .new 3, .give (.made 3)] ++
    takeOverAll 17 fs ++ (List.range 13).map (fun j => .new (4 + j)) ++ returnOld .none

/-- What one call does (src/pnumpy/_pnumpy.cpp:1196-1960, getitem.cpp:1038-1192, sorting.cpp:521-576). -/
def acts : RCall → List Act
  | .raises => []
  | .returnsNone => returnOld .none
  | .returnsBool b => returnOld (if b then .true_ else .false_)
  | .returnsNew => returnNew 0
  -- newinit
  | .doInit fs => initActs fs
  -- atop_info(), _pnumpy.cpp:1797-1799
  | .infoAll => [.take (.glob .table), .give (.glob .table)]
  -- atop_info(name, dtype), _pnumpy.cpp:1801-1819
  | .info true => getFromDict 0 ++ describe
  | .info false => getFromDict 0 ++ returnOld .false_
  -- atop_setworkers, _pnumpy.cpp:1832-1845
  | .setWorkers true => getFromDict 0 ++ returnNew 3
  | .setWorkers false => getFromDict 0 ++ returnOld .false_
  -- hook_enable, hook_disable, _pnumpy.cpp:1714-1763
  | .hook => [.new 0, .drop (.made 0)] ++ returnOld .true_
  -- oldinit, _pnumpy.cpp:1214-1240; a name numpy does not have, an attribute that is no ufunc, a ufunc
  | .oldinitMissing => [.take (.glob .numpy), .drop (.glob .numpy)]
  | .oldinitNotUfunc f => [.take (.glob .numpy), .take (.glob (.ufunc f)), .drop (.glob .numpy), .drop (.glob (.ufunc f))]
  | .oldinit f => [.take (.glob .numpy), .take (.glob (.ufunc f)), .drop (.glob .numpy)] ++ returnNew 0
  -- sort, sorting.cpp:556-575
  | .sort true => returnNew 0
  | .sort false => [.new 0, .drop (.made 0)]
  -- getitem, getitem.cpp:1119-1183, with the default of ConvertScalarObject, common.cpp:315-334, 429-432
  | .getitem .plain => returnNew 0
  | .getitem (.numpyInteger d first) =>
      [.new 0, .take (.glob (.descr d))] ++ (if first then [.new 1, .give (.made 1), .new 2, .give (.made 2)] else []) ++ [.give (.made 0)]
  | .getitem .text => [.new 0, .new 1, .give (.made 0)]

/-- Everything done by a history of calls, oldest first; call number `c` is counted from `c0` (src/pnumpy/_pnumpy.cpp:1196-1960). -/
def trace (c0 : Nat) : List RCall → List (Nat × Act)
  | [] => []
  | x :: xs => (acts x).map (fun a => (c0, a)) ++ trace (c0 + 1) xs

end Pnumpy.Refs
