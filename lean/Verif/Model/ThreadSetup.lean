import Verif.Model.Settings
import Verif.Model.Futex
/-
Start of the worker threads on Linux: GetProcessAffinityMask, GetProcCount (threads.cpp 577-606, 662-686), the constructor of
CMathWorker (threads.h 681-700), StartWorkerThreads (threads.h 880-910; ProcessorInformation does nothing on Linux, so
hyperthreading is never detected) and the beginning of WorkerThreadFunction (threads.cpp 78-83).
-/
namespace Pnumpy.ThreadSetup

/-- The process mask of GetProcessAffinityMask (threads.cpp 577-598); `cpus i`: CPU_ISSET(i). State of the loop: the mask and
bitpos. The fallback of lines 594-597 assigns the other mask twice and leaves this one 0. -/
def affinityLoop (cpus : Nat → Bool) : Nat → Nat → BitVec 64 × BitVec 64 → BitVec 64
  | 0, _, (mask, _) => mask
  | k + 1, i, (mask, bitpos) => affinityLoop cpus k (i + 1) ((if cpus i then mask ||| bitpos else mask), bitpos <<< 1)

/-- threads.cpp 577-598: `for (int i = 0; i < 63; i++)`. -/
def processMask (cpus : Nat → Bool) : BitVec 64 := affinityLoop cpus 63 0 (0, 1)

/-- The loop of GetProcCount: `while (mask1 != 0) { if (mask1 & 1) count++; mask1 = mask1 >> 1; }` (threads.cpp 673-676). -/
def countBits (mask : BitVec 64) (count : Nat) : Nat :=
  if h : mask = 0 then count
  else countBits (mask >>> 1) (if mask &&& 1 ≠ 0 then count + 1 else count)
termination_by mask.toNat
decreasing_by
  have : mask.toNat ≠ 0 := fun e => h (BitVec.eq_of_toNat_eq e)
  simp only [BitVec.toNat_ushiftRight, Nat.shiftRight_eq_div_pow]
  omega

/-- GetProcCount (threads.cpp 662-686): MAX_THREADS_WHEN_CANNOT_DETECT = 5, MAX_THREADS_ALLOWED = 15 (threads.h 53-66). -/
def procCount (cpus : Nat → Bool) : Nat :=
  let count := countBits (processMask cpus) 0
  let count := if count = 0 then 5 else count
  if count > 15 then 15 else count

/-- The settings of a process whose affinity mask is `cpus` (threads.h:685; the other fields as in `Settings.Cfg`). -/
def cfg (cpus : Nat → Bool) (hooked : String → Nat → Bool) (dflt : String → Int) : Settings.Cfg :=
  { W := procCount cpus, hooked := hooked, dflt := dflt }

/-- Worker threads at their start: `WorkThread` and the number each thread has drawn (threads.h 441, 456; threads.cpp:80). -/
structure Boot where
  workThread : Nat
  core : Nat → Option Nat

/-- Before the first thread runs (threads.h:456). -/
def Boot.init : Boot := ⟨0, fun _ => none⟩

/-- Thread `i` (slot of WorkerThreadHandles) executes `core = InterlockedIncrement64(&WorkThread)` (threads.cpp:80); it does so
once. -/
def Boot.step (b : Boot) (i : Nat) : Boot :=
  if (b.core i).isSome then b
  else ⟨b.workThread + 1, fun j => if j = i then some (b.workThread + 1) else b.core j⟩

/-- A schedule of thread starts (threads.h 895-905, threads.cpp:80). -/
def Boot.run (sched : List Nat) : Boot := sched.foldl Boot.step .init

/-- The threads that exist after StartWorkerThreads when `pthread_create` number `i` succeeds exactly if `ok i`: StartThread reports a
failure on the log only, and the loop goes on; the number of workers to wake stays computed from WorkerThreadCount (threads.h 891-905,
threads.cpp 227-239). -/
def created (W : Nat) (ok : Nat → Bool) : List Nat := (List.range W).filter fun i => ok i

/-- Pool of a worker (threads.cpp:83, MAX_WORKER_CHANNEL = 4). -/
def pool (core : Nat) : Nat := core / 4

end Pnumpy.ThreadSetup
