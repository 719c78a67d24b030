import Verif.Model.Dtypes
import Verif.Spec.Dtypes
/-
C37: the dtype tables.
-/
namespace Pnumpy.Props
open Pnumpy.Spec Pnumpy.Dtypes

private theorem small (d : Nat) (t : Kind × Nat) (h : npyType d = some t) : d < 24 := by
  rcases Nat.lt_or_ge d 24 with h' | h'
  · exact h'
  · have : npyType d = none := by
      unfold npyType
      split <;> first | omega | rfl
    rw [this] at h; cases h

/-- C37: for every numpy dtype number, a supported one converts to an atop type whose item size is that
of the dtype and which converts back to a dtype with the same representation (and again to the same atop
type); an unsupported one gives -1. -/
theorem C37_round_trip (d : Nat) (k : Kind) (size : Nat) (h : npyType d = some (k, size)) :
    (supported k = true → ∃ (a : Nat) (d' : Nat), dtypeToAtopFn d = .val a ∧ atopItemsize[a]? = some size ∧
        rd atopToDtype a = .val d' ∧ sameType d d' ∧ dtypeToAtopFn d' = .val a) ∧
      (supported k = false → dtypeToAtopFn d = .val (-1)) := by
  have hd := small d _ h
  rcases (by omega : d = 0 ∨ d = 1 ∨ d = 2 ∨ d = 3 ∨ d = 4 ∨ d = 5 ∨ d = 6 ∨ d = 7 ∨ d = 8 ∨ d = 9 ∨ d = 10 ∨ d = 11 ∨
    d = 12 ∨ d = 13 ∨ d = 14 ∨ d = 15 ∨ d = 16 ∨ d = 17 ∨ d = 18 ∨ d = 19 ∨ d = 20 ∨ d = 21 ∨ d = 22 ∨ d = 23) with
    rfl | rfl | rfl | rfl | rfl | rfl | rfl | rfl | rfl | rfl | rfl | rfl | rfl | rfl | rfl | rfl | rfl | rfl | rfl | rfl | rfl | rfl | rfl | rfl <;>
    (cases h; constructor) <;> intro hs <;> first
      | exact absurd hs (by decide)
      | exact ⟨0, 0, rfl, rfl, rfl, ⟨_, rfl, rfl⟩, rfl⟩
      | exact ⟨1, 1, rfl, rfl, rfl, ⟨_, rfl, rfl⟩, rfl⟩
      | exact ⟨2, 2, rfl, rfl, rfl, ⟨_, rfl, rfl⟩, rfl⟩
      | exact ⟨3, 3, rfl, rfl, rfl, ⟨_, rfl, rfl⟩, rfl⟩
      | exact ⟨4, 4, rfl, rfl, rfl, ⟨_, rfl, rfl⟩, rfl⟩
      | exact ⟨5, 5, rfl, rfl, rfl, ⟨_, rfl, rfl⟩, rfl⟩
      | exact ⟨6, 6, rfl, rfl, rfl, ⟨_, rfl, rfl⟩, rfl⟩
      | exact ⟨7, 7, rfl, rfl, rfl, ⟨_, rfl, rfl⟩, rfl⟩
      | exact ⟨8, 8, rfl, rfl, rfl, ⟨_, rfl, rfl⟩, rfl⟩
      | exact ⟨12, 11, rfl, rfl, rfl, ⟨_, rfl, rfl⟩, rfl⟩
      | exact ⟨13, 12, rfl, rfl, rfl, ⟨_, rfl, rfl⟩, rfl⟩
      | exact ⟨14, 13, rfl, rfl, rfl, ⟨_, rfl, rfl⟩, rfl⟩
      | exact ⟨16, 14, rfl, rfl, rfl, ⟨_, rfl, rfl⟩, rfl⟩
      | exact ⟨17, 15, rfl, rfl, rfl, ⟨_, rfl, rfl⟩, rfl⟩
      | exact ⟨18, 16, rfl, rfl, rfl, ⟨_, rfl, rfl⟩, rfl⟩
      | exact ⟨19, 18, rfl, rfl, rfl, ⟨_, rfl, rfl⟩, rfl⟩
      | exact ⟨20, 19, rfl, rfl, rfl, ⟨_, rfl, rfl⟩, rfl⟩
      | exact ⟨21, 20, rfl, rfl, rfl, ⟨_, rfl, rfl⟩, rfl⟩
      | exact ⟨11, 23, rfl, rfl, rfl, ⟨_, rfl, rfl⟩, rfl⟩
      | rfl

/-- Two dtypes get the same atop type exactly when they have the same representation (the types pnumpy supports). -/
theorem C37_same_iff (d e : Nat) (k k' : Kind) (m m' : Nat) (hd : npyType d = some (k, m)) (he : npyType e = some (k', m'))
    (hk : supported k = true) (hk' : supported k' = true) :
    dtypeToAtopFn d = dtypeToAtopFn e ↔ sameType d e := by
  have h1 := small d _ hd
  have h2 := small e _ he
  have key : ∀ d : Fin 24, ∀ e : Fin 24, (∀ t ∈ npyType d, supported t.1 = true) → (∀ t ∈ npyType e, supported t.1 = true) →
      (dtypeToAtopFn d.1 = dtypeToAtopFn e.1 ↔ npyType d = npyType e) := by decide +kernel
  have := key ⟨d, h1⟩ ⟨e, h2⟩ (by simp [hd, hk]) (by simp [he, hk'])
  rw [this]
  constructor
  · intro hh; exact ⟨_, hd, by rw [← hh, hd]⟩
  · rintro ⟨t, a, b⟩; rw [a, b]

example : npyType 9 = some (.int, 8) ∧ supported .int = true ∧ dtypeToAtopFn 9 = .val 7 ∧ rd atopToDtype 7 = .val 7 := by decide

/-- C37, range check: exactly the numbers 24..95 pass the check and read outside the table (the bound is
the size in bytes, not the number of entries).  No numpy dtype has such a number, so only the second half
of C37 is affected. -/
theorem C37_range_violated (d : Int) : dtypeToAtopFn d = .outside ↔ 24 ≤ d ∧ d < 96 := by
  unfold dtypeToAtopFn
  have hl : dtypeToAtop.length = 24 := rfl
  by_cases h : 0 ≤ d ∧ d < (dtypeToAtop.length * sizeofInt : Nat)
  · rw [if_pos h]
    have h2 : d < 96 := by have := h.2; rw [hl] at this; simpa [sizeofInt] using this
    unfold rd
    rcases Int.lt_or_le d 24 with h3 | h3
    · rw [List.getElem?_eq_getElem (by omega)]
      simp; omega
    · rw [List.getElem?_eq_none (by omega)]
      simp; omega
  · rw [if_neg h]
    rw [hl] at h
    simp [sizeofInt] at h
    simp; omega

/-- On the dtype numbers numpy has, nothing outside the table is read. -/
theorem C37_in_bounds_partial (d : Nat) (t : Kind × Nat) (h : npyType d = some t) : dtypeToAtopFn d ≠ .outside := by
  have := small d t h
  rw [Ne, C37_range_violated]; omega

/-- Case: float64 (numpy type number 12). -/
example : dtypeToAtopFn 12 ≠ .outside := C37_in_bounds_partial 12 _ rfl

end Pnumpy.Props
