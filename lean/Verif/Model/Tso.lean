import Verif.Model.WorkItem
/-
A threaded element-wise call on a machine with store buffers (x86-TSO), element by element.

Model/WorkItem takes the kernel's run over a block as one step and every store as immediately visible. Here a thread's plain stores go
through its own first-in-first-out buffer and reach memory at any later time; a thread reads its own newest buffered store, otherwise
memory; an `Interlocked*` operation (a `lock` instruction, src/atop/common_inc.h 177-179) waits until the thread's buffer is empty.
The kernel reads the inputs of one element and stores its result, one element per step, in any interleaving with the other threads.
One call is modelled; a worker that enters on a stale pool number is the subject of C05. The compiler is taken to keep the order of the stores.
-/
namespace Pnumpy.Tso
open Work

variable {V : Type}

/-- What the call works on: the addresses of the inputs and of the output of element `i`, and the operation
(the pointers and strides of UFUNC_CALLBACK, src/pnumpy/_pnumpy.cpp:207-234). -/
structure Job (V : Type) where
  ins : Nat → List Nat
  out : Nat → Nat
  f : List V → V

/-- Memory, the store buffers (oldest store first) and the control state; `pos c` is the number of elements of its block thread `c` has
stored (src/atop/threads.h:165-252, src/pnumpy/_pnumpy.cpp:449-482). -/
structure St (V : Type) where
  ctl : Work.St
  pos : Nat → Nat
  mem : Nat → V
  buf : Nat → List (Nat × V)

/-- One thread's next instruction, or the oldest store in its buffer reaching memory (for src/atop/threads.h:319-389). -/
inductive Act where
  | go (c : Nat)
  | drain (c : Nat)

/-- A plain load: the newest own buffered store to the address, else memory (the loads of src/pnumpy/_pnumpy.cpp:449-482). -/
def load (mem : Nat → V) : List (Nat × V) → Nat → V
  | [], a => mem a
  | (b, v) :: l, a => load (fun x => if x = b then v else mem x) l a

/-- Whether thread `c` is about to execute an `Interlocked*` operation: InterlockedIncrement64 of a channel, of BlockNext, of
BlocksCompleted (src/atop/threads.h:260-265, 324, 338). -/
def locked (it : Item) (c : Nat) : PC → Bool
  | .own => true
  | .bump _ _ => true
  | .complete _ => true
  | .scan i => decide (i ≠ c) && decide (i ≤ it.wakeup)
  | _ => false

/-- One step. `flag` is the address of Pool[].WorkIndex and the number of this call's work item: a worker enters the call when it reads that
number (src/atop/threads.cpp:104-122); the rest as in `Work.step` (src/atop/threads.h:319-389, src/pnumpy/_pnumpy.cpp:449-482). -/
def step [DecidableEq V] (it : Item) (job : Job V) (flag : Nat × V) (s : St V) : Act → St V
  | .drain c =>
    match s.buf c with
    | [] => s
    | (a, v) :: l => { s with mem := fun x => if x = a then v else s.mem x, buf := upd s.buf c l }
  | .go c =>
    if it.wakeup < c then s else
    match s.ctl.pc c with
    | .idle => if load s.mem (s.buf c) flag.1 = flag.2 then { s with ctl := Work.step it s.ctl c } else s
    | .run b =>
      if s.pos c < it.blockLen b then
        { s with
          buf := upd s.buf c (s.buf c ++ [(job.out (it.blockSize * b + s.pos c), job.f ((job.ins (it.blockSize * b + s.pos c)).map (load s.mem (s.buf c))))])
          pos := upd s.pos c (s.pos c + 1) }
      else { s with ctl := Work.step it s.ctl c }
    | .bump _ _ =>
      if s.buf c = [] then { s with ctl := Work.step it s.ctl c, pos := upd s.pos c 0 } else s
    | p =>
      if locked it c p = true ∧ s.buf c ≠ [] then s else { s with ctl := Work.step it s.ctl c }

/-- WorkMain about to enter DoWork (src/atop/threads.h:1117-1142): none of the caller's earlier stores `before` (the input arrays, the fields of the
work item, the callback argument) need have reached memory, nor the last one, the store that publishes the item (threads.h:536). -/
def init (mem : Nat → V) (before : List (Nat × V)) (flag : Nat × V) : St V :=
  { ctl := Work.init, pos := fun _ => 0, mem := mem, buf := fun c => if c = 0 then before ++ [flag] else [] }

/-- The state after a finite sequence of steps (of src/atop/threads.h:319-389). -/
def exec [DecidableEq V] (it : Item) (job : Job V) (mem : Nat → V) (before : List (Nat × V)) (flag : Nat × V) (acts : List Act) : St V :=
  acts.foldl (step it job flag) (init mem before flag)

end Pnumpy.Tso
