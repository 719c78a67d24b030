/-
Reference counts, as CPython defines them.  The history is a list of single actions; counts are sums over it.
-/
namespace Pnumpy.Spec.Refs

/-- Objects that exist before the call. -/
inductive Glob where
  | none | true_ | false_
  | numpy                -- the module
  | setbufsize           -- np.setbufsize
  | ufunc (name : String)
  | descr (type : Int)   -- the type object of an element type
  | table                -- the dictionary of the functions taken over
deriving DecidableEq, Repr

/-- An object named in an action: an old one, or the `i`-th object made in this call. -/
inductive Obj where
  | glob (g : Glob)
  | made (i : Nat)
deriving DecidableEq, Repr

/-- Actions on one reference.  `new`: a new object, with one reference, held by the running C code.  `take`: Py_INCREF, or a function that returns a new reference
to an old object.  `drop`: Py_DECREF.  `steal`: the C code's reference is handed to a container (PyTuple_SetItem).  `store`: a container makes its own reference
(PyDict_SetItem).  `release`: a container that is freed drops the reference it holds.  `give`: the C code's reference is handed to the caller (return value) or kept
in a variable of the module. -/
inductive Act where
  | new (i : Nat) | take (o : Obj) | drop (o : Obj) | steal (o : Obj) | store (o : Obj) | release (o : Obj) | give (o : Obj)
deriving DecidableEq, Repr

/-- An object over a whole history: old, or made in call `c`. -/
inductive Id where
  | glob (g : Glob)
  | made (c i : Nat)
deriving DecidableEq, Repr

/-- The object an action of call `c` is about. -/
def Obj.id (c : Nat) : Obj → Id
  | .glob g => .glob g
  | .made i => .made c i

def Act.obj : Act → Obj
  | .new i => .made i
  | .take o | .drop o | .steal o | .store o | .release o | .give o => o

/-- Change of the object's reference count. -/
def Act.count : Act → Int
  | .new _ | .take _ | .store _ => 1
  | .drop _ | .release _ => -1
  | .steal _ | .give _ => 0

/-- Change of the number of references that somebody other than the running C code holds. -/
def Act.held : Act → Int
  | .steal _ | .store _ | .give _ => 1
  | .release _ => -1
  | .new _ | .take _ | .drop _ => 0

/-- The reference count of an object, relative to before the history. -/
def count (id : Id) (t : List (Nat × Act)) : Int := (t.map fun p => if p.2.obj.id p.1 = id then p.2.count else 0).sum

/-- References held by containers, by Python code or by variables of the module. -/
def held (id : Id) (t : List (Nat × Act)) : Int := (t.map fun p => if p.2.obj.id p.1 = id then p.2.held else 0).sum

/-- References nobody will ever drop. -/
def lost (id : Id) (t : List (Nat × Act)) : Int := count id t - held id t

/-- How the third argument of getitem is converted. -/
inductive Default where
  | plain                                -- none given, or a Python number, bool, bytes, numpy float, ...
  | numpyInteger (type : Int) (first : Bool)  -- a numpy integer (`first`: the first such call in this process)
  | text                                 -- a str
deriving DecidableEq, Repr

/-- A call, by function and course.  `returnsNone/Bool/New`: atop_enable, atop_disable, atop_isenabled, thread_*, ledger_*, recycler_*, timer_*, cpustring,
recarray_to_colmajor, hook calls that change nothing, a second initialize(); `raises`: argument errors of any function. -/
inductive RCall where
  | raises | returnsNone | returnsBool (b : Bool) | returnsNew
  | doInit (functions : List (String × Nat))
  | infoAll | info (found : Bool) | setWorkers (accepted : Bool)
  | hook
  | oldinitMissing | oldinitNotUfunc (name : String) | oldinit (name : String)
  | sort (ok : Bool)
  | getitem (d : Default)
deriving DecidableEq, Repr

/-- The exceptions of C106: a first initialize(), a successful atop_info(name, dtype), a successful oldinit(name), getitem with a numpy integer or a str as default. -/
def Loses : RCall → Prop
  | .doInit _ => True
  | .info true => True
  | .oldinit _ => True
  | .getitem (.numpyInteger _ _) => True
  | .getitem .text => True
  | _ => False

end Pnumpy.Spec.Refs
