import Verif.Model.WorkCounter
import Verif.Model.Tso
import Verif.Model.Arange
/-
Threaded calls whose threads draw task numbers from one counter (Model/WorkCounter: getitem, arange, recarray, chunk work) on a machine with store
buffers (x86-TSO), down to single loads and stores.

The code of a task is any sequence of plain loads and stores in which each loaded value determines how it goes on; a thread's stores go through its own
first-in-first-out buffer (Model/Tso). Drawing a number (InterlockedIncrement64 of BlockNext) and reporting a task (InterlockedIncrement64 of BlocksCompleted)
are `lock` instructions (src/atop/threads.h 254-313) and wait until the thread's own buffer is empty. One call is modelled; a worker that enters on a stale
pool number is the subject of C05. The compiler is taken to keep the order of the stores.
-/
namespace Pnumpy.TsoCounter
open Pnumpy.Work (upd)
open Pnumpy.Tso (load)

variable {V : Type}

/-- Straight execution of the code of one task (the callbacks called at src/atop/threads.h:936-941, 995-999; src/pnumpy/getitem.cpp:881-924;
src/atop/recarray.cpp:189-208). -/
inductive Prog (V : Type) where
  | done
  | load (a : Nat) (k : V → Prog V)
  | store (a : Nat) (v : V) (k : Prog V)

/-- Memory, the store buffers (oldest store first), the control state, and what each thread still has to execute of its task
(src/atop/threads.h:165-252, 926-1006). -/
structure St (V : Type) where
  ctl : Counter.St
  code : Nat → Prog V
  mem : Nat → V
  buf : Nat → List (Nat × V)

/-- One thread's next instruction, a futex wake-up, or the oldest store in a buffer reaching memory (for src/atop/threads.h:926-1006). -/
inductive Act where
  | go (c : Nat)
  | wake (c : Nat)
  | drain (c : Nat)

/-- One step. `flag` is the address of Pool[].WorkIndex and the number of this call's work item: a worker enters the call when it reads that
number (src/atop/threads.cpp:104-122); `prog b` is the code of task `b`; the rest as in `Counter.step` (src/atop/threads.h:254-313, 926-1006). -/
def step [DecidableEq V] (g : Counter.Cfg) (prog : Nat → Prog V) (flag : Nat × V) (s : St V) : Act → St V
  | .drain c =>
    match s.buf c with
    | [] => s
    | (a, v) :: l => { s with mem := fun x => if x = a then v else s.mem x, buf := upd s.buf c l }
  | .wake c => { s with ctl := Counter.step g s.ctl (.wake c) }
  | .go c =>
    if g.wakeup < c then s else
    match s.ctl.pc c with
    | .idle => if load s.mem (s.buf c) flag.1 = flag.2 then { s with ctl := Counter.step g s.ctl (.go c) } else s
    | .fetch _ =>
      if s.buf c ≠ [] then s
      else { s with
        ctl := Counter.step g s.ctl (.go c)
        code := upd s.code c (match g.task s.ctl.next with | some b => prog b | none => .done) }
    | .run _ =>
      match s.code c with
      | .load a k => { s with code := upd s.code c (k (load s.mem (s.buf c) a)) }
      | .store a v k => { s with buf := upd s.buf c (s.buf c ++ [(a, v)]), code := upd s.code c k }
      | .done => { s with ctl := Counter.step g s.ctl (.go c) }
    | .complete _ => if s.buf c ≠ [] then s else { s with ctl := Counter.step g s.ctl (.go c) }
    | _ => { s with ctl := Counter.step g s.ctl (.go c) }

/-- WorkMain about to call DoWork (src/atop/threads.h:1105-1142): none of the caller's earlier stores `before` (the arrays, the fields of the work item, the
callback argument) need have reached memory, nor the last one, the store that publishes the item (threads.h:536). -/
def init (mem : Nat → V) (before : List (Nat × V)) (flag : Nat × V) : St V :=
  { ctl := Counter.init, code := fun _ => .done, mem := mem, buf := fun c => if c = 0 then before ++ [flag] else [] }

/-- The state after a finite sequence of steps (of src/atop/threads.h:926-1006). -/
def exec [DecidableEq V] (g : Counter.Cfg) (prog : Nat → Prog V) (mem : Nat → V) (before : List (Nat × V)) (flag : Nat × V) (acts : List Act) : St V :=
  acts.foldl (step g prog flag) (init mem before flag)

/-- The state after `t` steps of an infinite schedule (of src/atop/threads.h:926-1006). -/
def trace [DecidableEq V] (g : Counter.Cfg) (prog : Nat → Prog V) (mem : Nat → V) (before : List (Nat × V)) (flag : Nat × V) (σ : Nat → Act) : Nat → St V
  | 0 => init mem before flag
  | t + 1 => step g prog flag (trace g prog mem before flag σ t) (σ t)

/-- The code executed alone on memory `m`: final memory (for the callbacks of src/atop/threads.h:936-941, 995-999). -/
def seqRun : Prog V → (Nat → V) → Nat → V
  | .done, m => m
  | .load a k, m => seqRun (k (m a)) m
  | .store a v k, m => seqRun k (fun x => if x = a then v else m x)

/-- The code executed alone on memory `m`: the cells it loads (for the callbacks of src/atop/threads.h:936-941, 995-999). -/
def seqLoads : Prog V → (Nat → V) → List Nat
  | .done, _ => []
  | .load a k, m => a :: seqLoads (k (m a)) m
  | .store a v k, m => seqLoads k (fun x => if x = a then v else m x)

/-- The code executed alone on memory `m`: the cells it stores to, with the values (for the callbacks of src/atop/threads.h:936-941, 995-999). -/
def seqStores : Prog V → (Nat → V) → List (Nat × V)
  | .done, _ => []
  | .load a k, m => seqStores (k (m a)) m
  | .store a v k, m => (a, v) :: seqStores k (fun x => if x = a then v else m x)

/-- Without a work item one thread does the tasks `b, b + 1, ..., b + k - 1` one after the other (src/atop/threads.h:1030-1034, 966-972). -/
def serial (prog : Nat → Prog V) : Nat → Nat → (Nat → V) → Nat → V
  | _, 0, m => m
  | b, k + 1, m => serial prog (b + 1) k (seqRun (prog b) m)

/-- First `p`, then `q` (for a kernel's loop, e.g. src/pnumpy/getitem.cpp:689-702). -/
def Prog.andThen : Prog V → Prog V → Prog V
  | .done, q => q
  | .load a k, q => .load a fun v => (k v).andThen q
  | .store a v k, q => .store a v (k.andThen q)

/-- One task of arange on the elements `i, ..., i + k - 1`, `out` their cells: numpy has put the first two values into elements 0 and 1; every task reads them there and
fills its own elements, task 0 those two as well (src/atop/fill.cpp:63-76). -/
def arangeCode (ops : Arange.Ops V) (out : Nat → Nat) (i k : Nat) : Prog V :=
  .load (out 0) fun first => .load (out 1) fun second => go first (ops.sub second first) i k
where
  go (first delta : V) (i : Nat) : Nat → Prog V
    | 0 => .done
    | k + 1 => .store (out i) (ops.elem first i delta) (go first delta (i + 1) k)

/-- Task `b` of arange (src/atop/fill.cpp:111-128, src/atop/threads.h:994-999). -/
def arangeTask (n : Nat) (ops : Arange.Ops V) (out : Nat → Nat) (b : Nat) : Prog V :=
  arangeCode ops out (Work.CHUNK * b) ((Work.workMainSetup n 0 0 Work.CHUNK true 0).blockLen b)

/-- A kernel's loop over the elements `i, ..., i + k - 1` (e.g. src/pnumpy/getitem.cpp:689-702, src/atop/fill.cpp:73-76). -/
def loopCode (code : Nat → Prog V) (i : Nat) : Nat → Prog V
  | 0 => .done
  | k + 1 => (code i).andThen (loopCode code (i + 1) k)

/-- Chunk mode: task `b` is the kernel on the elements of block `b`, the last block shorter (src/atop/threads.h:288-313, 994-999). -/
def chunkCode (n : Nat) (code : Nat → Prog V) (b : Nat) : Prog V :=
  loopCode code (Work.CHUNK * b) ((Work.workMainSetup n 0 0 Work.CHUNK true 0).blockLen b)

/-- One element of the indexing kernel: read the index, then the cell it selects - of the table, or the default's for an index out of range -, then store
the result (src/pnumpy/getitem.cpp:689-702, 627-660). -/
def takeCode (idx out : Nat → Nat) (sel : V → Nat) (i : Nat) : Prog V :=
  .load (idx i) fun v => .load (sel v) fun x => .store (out i) x .done

end Pnumpy.TsoCounter
