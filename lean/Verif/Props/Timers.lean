import Verif.Model.Timers
/-
C100: the clock functions report the clocks exactly.
-/
namespace Pnumpy.Props
open Pnumpy.Timers

private theorem fit_some (x : Int) (h : -(2 ^ 63) ≤ x ∧ x < 2 ^ 63) : fit x = some x := by unfold fit; rw [if_pos h]

/-- **C100**: `timer_getutc()` is the time since 1970 in nanoseconds, exactly, for every time whose number of nanoseconds fits into 64 bits: from 1677 to
the year 2262. -/
theorem C100_utc (sec nsec : Int) (hn : 0 ≤ nsec ∧ nsec < 1000000000) (hs : -9223372036 ≤ sec ∧ sec ≤ 9223372035) :
    timerGetutc sec nsec = some (sec * 1000000000 + nsec) := by
  unfold timerGetutc getTimeStamp
  rw [fit_some (sec * 1000000000) (by omega)]
  simp only [Option.bind_eq_bind, Option.bind_some]
  rw [fit_some (sec * 1000000000 + nsec) (by omega)]
  simp only [Option.bind_some, Option.pure_def, Option.map_some, BitVec.toInt_ofInt]
  rw [Int.bmod_eq_of_le] <;> omega

/-- Case: a time in November 2026. -/
example : timerGetutc 1795000000 123456789 = some 1795000000123456789 := C100_utc _ _ (by decide) (by decide)

/-- **C100**: so the difference of two values is the time elapsed between the two readings, and a later reading gives a larger value. -/
theorem C100_utc_elapsed (sec nsec sec' nsec' : Int) (hn : 0 ≤ nsec ∧ nsec < 1000000000) (hs : -9223372036 ≤ sec ∧ sec ≤ 9223372035)
    (hn' : 0 ≤ nsec' ∧ nsec' < 1000000000) (hs' : -9223372036 ≤ sec' ∧ sec' ≤ 9223372035) :
    ∃ a b, timerGetutc sec nsec = some a ∧ timerGetutc sec' nsec' = some b ∧ b - a = (sec' - sec) * 1000000000 + (nsec' - nsec) ∧
      (a < b ↔ sec < sec' ∨ sec = sec' ∧ nsec < nsec') := by
  refine ⟨_, _, C100_utc sec nsec hn hs, C100_utc sec' nsec' hn' hs', by omega, ?_⟩
  omega

/-- Case: one nanosecond across a second boundary. -/
example : ∃ a b, timerGetutc 1795000000 999999999 = some a ∧ timerGetutc 1795000001 0 = some b ∧ b - a = (1795000001 - 1795000000) * 1000000000 + (0 - 999999999) ∧
    (a < b ↔ (1795000000 : Int) < 1795000001 ∨ (1795000000 : Int) = 1795000001 ∧ (999999999 : Int) < 0) :=
  C100_utc_elapsed _ _ _ _ (by decide) (by decide) (by decide) (by decide)

/-- C100 ends in 2262: from then on the product of seconds and 10⁹ overflows, which C++ leaves undefined. -/
theorem C100_utc_overflow (sec nsec : Int) (hs : 9223372037 ≤ sec) : timerGetutc sec nsec = none := by
  unfold timerGetutc getTimeStamp
  have : fit (sec * 1000000000) = none := by unfold fit; rw [if_neg]; omega
  rw [this]; rfl

example : timerGetutc 9300000000 5 = none := C100_utc_overflow _ _ (by decide)

/-- **C100**: `timer_gettsc()` is the processor's time stamp counter, for every value of the counter. -/
theorem C100_tsc (counter : BitVec 64) : timerGettsc counter = counter.toNat := by
  unfold timerGettsc
  congr 1
  unfold rdtsc eax edx
  apply BitVec.eq_of_getLsbD_eq
  intro i hi
  simp only [BitVec.getLsbD_or, BitVec.getLsbD_setWidth, BitVec.getLsbD_shiftLeft, BitVec.getLsbD_ushiftRight]
  by_cases h : i < 32
  · simp [hi, h]
  · have h1 : i - 32 < 32 := by omega
    have h2 : i - 32 < 64 := by omega
    have h3 : 32 + (i - 32) = i := by omega
    simp [hi, h, h1, h2, h3]

/-- Case: a counter value with both halves non-zero. -/
example : timerGettsc 0x0123456789abcdef#64 = 0x0123456789abcdef := by rw [C100_tsc]; rfl

/-- **C100**: the number of cycles a ledger line reports is the difference of the two counter readings, as long as the counter is below 2^63. -/
theorem C100_ledger_cycles (start finish : BitVec 64) (h : start.toNat < 2 ^ 63) (h' : finish.toNat < 2 ^ 63) :
    deltaTime (rdtsc start) (rdtsc finish) = some ((finish.toNat : Int) - start.toNat) := by
  have e : ∀ c : BitVec 64, (rdtsc c).toNat = c.toNat := C100_tsc
  unfold deltaTime
  have t : ∀ c : BitVec 64, c.toNat < 2 ^ 63 → (rdtsc c).toInt = c.toNat := by
    intro c hc
    rw [BitVec.toInt_eq_toNat_of_lt (by rw [e]; omega), e]
  rw [t _ h, t _ h']
  exact fit_some _ (by omega)

/-- Case: 3 · 10⁹ cycles. -/
example : deltaTime (rdtsc 5000000000#64) (rdtsc 8000000000#64) = some ((8000000000#64).toNat - (5000000000#64).toNat : Int) := C100_ledger_cycles _ _ (by decide) (by decide)

end Pnumpy.Props
