import Verif.Model.Tso
import Verif.Model.TsoCounter
import Verif.Model.Dispatch
/-
Threaded element-wise calls on a machine with store buffers (x86-TSO), with the kernels' own sequences of loads and stores.

Model/Tso takes a block as a loop "load the inputs of one element, store its result". The kernels pnumpy runs do not work like that: the vector loops load the
operands of up to 32 elements before they store the first result, the scalar tails and the in-place branches differ, and one kernel stores some elements twice
(Model/Elementwise). Here the code of a block is any sequence of plain loads and stores (`TsoCounter.Prog`); the control is that of Model/WorkItem (per-thread
channels and stealing), the memory that of Model/Tso. One lane is one load or store of its own, so a vector access is not atomic.
One call is modelled; a worker that enters on a stale pool number is the subject of C05. The compiler is taken to keep the order of the stores.
-/
namespace Pnumpy.TsoWork
open Work
open Pnumpy.Tso (load locked)
open Pnumpy.TsoCounter (Prog)

variable {V : Type}

/-- Memory, the store buffers (oldest store first), the control state, and what each thread still has to execute of its block
(src/atop/threads.h:165-252, src/pnumpy/_pnumpy.cpp:449-482). -/
structure St (V : Type) where
  ctl : Work.St
  code : Nat → Prog V
  mem : Nat → V
  buf : Nat → List (Nat × V)

/-- One thread's next instruction, or the oldest store in its buffer reaching memory (for src/atop/threads.h:319-389). -/
inductive Act where
  | go (c : Nat)
  | drain (c : Nat)

/-- One step. `flag` is the address of Pool[].WorkIndex and the number of this call's work item: a worker enters the call when it reads that
number (src/atop/threads.cpp:104-122); `prog b` is the code of block `b`, begun after BlockNext has been incremented; the rest as in `Work.step`
(src/atop/threads.h:319-389, src/pnumpy/_pnumpy.cpp:449-482). -/
def step [DecidableEq V] (it : Item) (prog : Nat → Prog V) (flag : Nat × V) (s : St V) : Act → St V
  | .drain c =>
    match s.buf c with
    | [] => s
    | (a, v) :: l => { s with mem := fun x => if x = a then v else s.mem x, buf := upd s.buf c l }
  | .go c =>
    if it.wakeup < c then s else
    match s.ctl.pc c with
    | .idle => if load s.mem (s.buf c) flag.1 = flag.2 then { s with ctl := Work.step it s.ctl c } else s
    | .run _ =>
      match s.code c with
      | .load a k => { s with code := upd s.code c (k (load s.mem (s.buf c) a)) }
      | .store a v k => { s with buf := upd s.buf c (s.buf c ++ [(a, v)]), code := upd s.code c k }
      | .done => { s with ctl := Work.step it s.ctl c }
    | .bump ch pos =>
      if s.buf c = [] then { s with ctl := Work.step it s.ctl c, code := upd s.code c (prog (it.logical ch pos)) } else s
    | p =>
      if locked it c p = true ∧ s.buf c ≠ [] then s else { s with ctl := Work.step it s.ctl c }

/-- WorkMain about to enter DoWork (src/atop/threads.h:1117-1142): none of the caller's earlier stores `before` (the input arrays, the fields of the
work item, the callback argument) need have reached memory, nor the last one, the store that publishes the item (threads.h:536). -/
def init (mem : Nat → V) (before : List (Nat × V)) (flag : Nat × V) : St V :=
  { ctl := Work.init, code := fun _ => .done, mem := mem, buf := fun c => if c = 0 then before ++ [flag] else [] }

/-- The state after a finite sequence of steps (of src/atop/threads.h:319-389). -/
def exec [DecidableEq V] (it : Item) (prog : Nat → Prog V) (mem : Nat → V) (before : List (Nat × V)) (flag : Nat × V) (acts : List Act) : St V :=
  acts.foldl (step it prog flag) (init mem before flag)

/-- The state after `t` steps of an infinite schedule (of src/atop/threads.h:319-389). -/
def trace [DecidableEq V] (it : Item) (prog : Nat → Prog V) (mem : Nat → V) (before : List (Nat × V)) (flag : Nat × V) (σ : Nat → Act) : Nat → St V
  | 0 => init mem before flag
  | t + 1 => step it prog flag (trace it prog mem before flag σ t) (σ t)

/-- A kernel's lane accesses as code: the two operands of a lane are loaded one after the other, the result kept in the lane's register `reg` until the lane is
stored (src/atop/ops_binary.cpp:405-861, src/atop/ops_unary.cpp:325-985, src/atop/ops_compare.cpp:396-1262). Storing a lane never loaded ends the code, so that
its element keeps its old value. Addresses are natural numbers here. -/
def accCode (f : V → V → V) : (Nat → Option V) → List Elem.Acc → Prog V
  | _, [] => .done
  | reg, .load l x y :: es => .load x.toNat fun u => .load y.toNat fun v => accCode f (upd reg l (some (f u v))) es
  | reg, .store l a :: es =>
    match reg l with
    | some v => .store a.toNat v (accCode f reg es)
    | none => .done

/-- The code of block `b` of a stub's threaded call: the chosen implementation on the pointers advanced to the block
(src/pnumpy/_pnumpy.cpp:447-590, 772-791). -/
def blockCode (f : V → V → V) (k : Option Elem.Kernel) (A : Elem.Args) (it : Item) (b : Nat) : Prog V :=
  accCode f (fun _ => none) (Dispatch.implProg k (A.at (it.blockSize * b)) (it.blockLen b))

end Pnumpy.TsoWork
