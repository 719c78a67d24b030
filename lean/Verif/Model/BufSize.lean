import Verif.Spec.BufSize
/-
`newinit` and numpy's buffer size (src/pnumpy/_pnumpy.cpp:1296-1314).  numpy's `setbufsize` stores the size for the calling thread.  Simplification: numpy can be
imported, its `setbufsize` is numpy's own and accepts 8388608 (it does: a multiple of 16 below 10^7); AVX2 is present (else the import fails, C101).
-/
namespace Pnumpy.BufSize
open Pnumpy.Spec.BufSize

/-- `g_Settings.Initialized` (src/pnumpy/_pnumpy.cpp:348) and numpy's buffer size of each thread. -/
structure St where
  initialized : Bool
  size : Nat → Nat

/-- Before anything (src/pnumpy/_pnumpy.cpp:348). -/
def init (dflt : Nat) : St := { initialized := false, size := fun _ => dflt }

/-- One event (src/pnumpy/_pnumpy.cpp:1296-1314: `setbufsize(8192 * 1024)` inside the branch for the first call). -/
def step (s : St) : Event → St
  | .userSets t k => { s with size := fun u => if u = t then k else s.size u }
  | .initialize_ t => if s.initialized then s else { initialized := true, size := fun u => if u = t then 8192 * 1024 else s.size u }
  | .other _ => s

/-- State after a history (newest first) (src/pnumpy/_pnumpy.cpp:1287-1676). -/
def run (dflt : Nat) : List Event → St
  | [] => init dflt
  | e :: older => step (run dflt older) e

end Pnumpy.BufSize
