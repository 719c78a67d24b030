/-
The clock functions on Linux: `GetTimeStamp`, `rdtsc`, `timer_gettsc`, `timer_getutc` (src/pnumpy/ledger.cpp:78-116) and the elapsed time of a ledger line
(src/pnumpy/_pnumpy.cpp:351-355, ledger.cpp:222, 252).  The clocks themselves are inputs: `clock_gettime` gives seconds and nanoseconds, the `rdtsc` instruction
the 64-bit counter in two halves.  Overflow of signed arithmetic is undefined in C++: `none`.  (The Windows half of the file, 3-70, is not modelled.)
-/
namespace Pnumpy.Timers

/-- The value of a signed 64-bit operation with mathematical result `x`: undefined if it does not fit (the additions and the product of src/pnumpy/ledger.cpp:90, 222). -/
def fit (x : Int) : Option Int := if -(2 ^ 63) ≤ x ∧ x < 2 ^ 63 then some x else none

/-- `GetTimeStamp`: `x.tv_sec * 1000000000L + x.tv_nsec`, returned as uint64 (src/pnumpy/ledger.cpp:81-91). -/
def getTimeStamp (sec nsec : Int) : Option (BitVec 64) := do
  let p ← fit (sec * 1000000000)
  let q ← fit (p + nsec)
  pure (BitVec.ofInt 64 q)

/-- `timer_getutc`: `PyLong_FromLongLong(GetTimeStamp())` (src/pnumpy/ledger.cpp:109-116). -/
def timerGetutc (sec nsec : Int) : Option Int := (getTimeStamp sec nsec).map BitVec.toInt

/-- The instruction `rdtsc`: the low half of the counter in EAX, the high half in EDX (src/pnumpy/ledger.cpp:96). -/
def eax (counter : BitVec 64) : BitVec 32 := counter.setWidth 32
/-- See `eax` (src/pnumpy/ledger.cpp:96). -/
def edx (counter : BitVec 64) : BitVec 32 := (counter >>> 32).setWidth 32

/-- `rdtsc`: `((uint64_t)lo) | (((uint64_t)hi) << 32)` (src/pnumpy/ledger.cpp:93-98). -/
def rdtsc (counter : BitVec 64) : BitVec 64 := (eax counter).setWidth 64 ||| ((edx counter).setWidth 64 <<< 32)

/-- `timer_gettsc`: `PyLong_FromUnsignedLongLong(rdtsc())` (src/pnumpy/ledger.cpp:100-107). -/
def timerGettsc (counter : BitVec 64) : Nat := (rdtsc counter).toNat

/-- `deltaTime = end_time - start_time` of two counter values kept as int64 (src/pnumpy/_pnumpy.cpp:351-355, src/pnumpy/ledger.cpp:222, 252). -/
def deltaTime (start finish : BitVec 64) : Option Int := fit (finish.toInt - start.toInt)

end Pnumpy.Timers
