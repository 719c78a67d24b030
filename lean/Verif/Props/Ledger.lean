import Verif.Model.Ledger
/-
C38: the ledger ring.
-/
namespace Pnumpy.Props
open Pnumpy.Ledger

private theorem slot_lt (t : BitVec 64) : slotOf t < 8096 := by
  unfold slotOf MASK
  rw [BitVec.toNat_and]
  have := @Nat.and_le_left (8095#64).toNat t.toNat
  have h : (8095#64).toNat = 8095 := rfl
  omega

private theorem slot_mod (t : BitVec 64) : slotOf t % 32 = t.toNat % 32 := by
  unfold slotOf MASK
  rw [BitVec.toNat_and]
  have h : (8095#64).toNat = 8095 := rfl
  rw [h, show (32 : Nat) = 2 ^ 5 from rfl, Nat.and_mod_two_pow]
  rw [show 8095 % 2 ^ 5 = 2 ^ 5 - 1 from rfl, Nat.and_comm, Nat.and_two_pow_sub_one_eq_mod, Nat.mod_mod]

private theorem record_len {α : Type} (s s' : St α) (e : α) (h : record s e = some s') :
    s'.queue.length = s.queue.length ∧ s'.tail = s.tail + 1 ∧ s'.queue = s.queue.set (slotOf s.tail) (some e) := by
  unfold record at h
  split at h
  · injection h with h; subst h; simp
  · cases h

/-- C38: recording any sequence of calls never stores outside the ring. -/
theorem C38_never_outside {α : Type} (es : List α) : ∃ s, recordAll (init α) es = some s ∧ s.queue.length = SIZE := by
  have gen : ∀ (es : List α) (s : St α), s.queue.length = SIZE → ∃ s', recordAll s es = some s' ∧ s'.queue.length = SIZE := by
    intro es
    induction es with
    | nil => intro s h; exact ⟨s, rfl, h⟩
    | cons e t ih =>
      intro s h
      have hlt : slotOf s.tail < s.queue.length := by rw [h]; exact slot_lt _
      obtain ⟨s', h1, h2⟩ := ih { tail := s.tail + 1, queue := s.queue.set (slotOf s.tail) (some e) } (by simp [h])
      refine ⟨s', ?_, h2⟩
      simp only [recordAll, record, if_pos hlt, Option.bind_some]
      exact h1
  exact gen es (init α) (by simp [init, List.length_replicate])

private theorem tail_after {α : Type} (es : List α) (s s' : St α) (h : recordAll s es = some s') : s'.tail = s.tail + BitVec.ofNat 64 es.length := by
  induction es generalizing s with
  | nil => simp only [recordAll] at h; injection h with h; subst h; simp
  | cons e t ih =>
    simp only [recordAll] at h
    obtain ⟨s1, h1, h2⟩ := Option.bind_eq_some_iff.1 h
    rw [ih s1 h2, (record_len s s1 e h1).2.1, List.length_cons, Nat.add_comm t.length 1, BitVec.ofNat_add, BitVec.add_assoc]
    rfl

private theorem append_split {α : Type} (a b : List α) (s s' : St α) (h : recordAll s (a ++ b) = some s') :
    ∃ s1, recordAll s a = some s1 ∧ recordAll s1 b = some s' := by
  induction a generalizing s with
  | nil => exact ⟨s, rfl, h⟩
  | cons e t ih =>
    simp only [List.cons_append, recordAll] at h
    obtain ⟨s1, h1, h2⟩ := Option.bind_eq_some_iff.1 h
    obtain ⟨s2, h3, h4⟩ := ih s1 h2
    exact ⟨s2, by simp only [recordAll]; rw [h1]; exact h3, h4⟩

private theorem keep {α : Type} (es : List α) (i : Nat) (e : α) (s s' : St α) (h : recordAll s es = some s')
    (hi : s.queue[i]? = some (some e)) (hne : ∀ j, j < es.length → slotOf (s.tail + BitVec.ofNat 64 j) ≠ i) : s'.queue[i]? = some (some e) := by
  induction es generalizing s with
  | nil => simp only [recordAll] at h; injection h with h; subst h; exact hi
  | cons x t ih =>
    simp only [recordAll] at h
    obtain ⟨s1, h1, h2⟩ := Option.bind_eq_some_iff.1 h
    obtain ⟨hl, ht, hq⟩ := record_len s s1 x h1
    refine ih s1 h2 ?_ ?_
    · rw [hq, List.getElem?_set_ne (by have := hne 0 (by simp); simpa using this)]; exact hi
    · intro j hj
      have := hne (j + 1) (by simpa using hj)
      rw [Nat.add_comm j 1, BitVec.ofNat_add, ← BitVec.add_assoc] at this
      rw [ht]; exact this

private theorem mod_tail (t : BitVec 64) (j : Nat) : (t + BitVec.ofNat 64 j).toNat % 32 = (t.toNat + j) % 32 := by
  rw [BitVec.toNat_add, BitVec.toNat_ofNat]; omega

/-- C38, what holds: the last 32 recorded calls are in the ring, whatever was recorded before
(the ring is meant to hold 8096). -/
theorem C38_last_32_partial {α : Type} (before : List α) (e : α) (after : List α) (hafter : after.length < 32) :
    ∃ s, recordAll (init α) (before ++ e :: after) = some s ∧ some e ∈ s.queue := by
  obtain ⟨s, hs, _⟩ := C38_never_outside (before ++ e :: after)
  refine ⟨s, hs, ?_⟩
  obtain ⟨s1, h1, h2⟩ := append_split before (e :: after) _ s hs
  simp only [recordAll] at h2
  obtain ⟨s2, h3, h4⟩ := Option.bind_eq_some_iff.1 h2
  obtain ⟨hl, ht, hq⟩ := record_len s1 s2 e h3
  have hlen : s1.queue.length = SIZE := by
    obtain ⟨s1', a, b⟩ := C38_never_outside before
    rw [h1] at a; injection a with a; rw [a]; exact b
  have hin : s2.queue[slotOf s1.tail]? = some (some e) := by
    rw [hq, List.getElem?_set_self (by rw [hlen]; exact slot_lt _)]
  have hkeep := keep after (slotOf s1.tail) e s2 s h4 hin (by
    intro j hj heq
    have hm := congrArg (· % 32) heq
    simp only [slot_mod, ht] at hm
    rw [BitVec.add_assoc, show (1 : BitVec 64) + BitVec.ofNat 64 j = BitVec.ofNat 64 (1 + j) by rw [BitVec.ofNat_add]; rfl,
      mod_tail] at hm
    omega)
  exact List.mem_of_getElem? hkeep

example : ([1, 2, 3] : List Nat).length < 32 := by decide

/-- C38 is false: after every number of recorded calls that is below 96 modulo 128, the call recorded
then is overwritten by the 33rd call, although the ring has 8096 places (the mask 8095 has gaps). -/
theorem C38_overwritten_violated (n : Nat) (hn : n % 128 < 96) (hbig : n + 32 < 2 ^ 64) :
    slotOf (BitVec.ofNat 64 n) = slotOf (BitVec.ofNat 64 (n + 32)) := by
  have hm : ∀ m, m < 2 ^ 64 → slotOf (BitVec.ofNat 64 m) = 8095 &&& m := by
    intro m h
    unfold slotOf MASK
    rw [BitVec.toNat_and, BitVec.toNat_ofNat, BitVec.toNat_ofNat, Nat.mod_eq_of_lt h]
  rw [hm n (by omega), hm (n + 32) hbig]
  apply Nat.eq_of_testBit_eq
  intro i
  rw [Nat.testBit_and, Nat.testBit_and]
  -- below bit 5 and above bit 6 the two numbers agree; bits 5 and 6 are masked out
  rcases Nat.lt_or_ge i 5 with h5 | h5
  · have : n.testBit i = (n + 32).testBit i := by
      have e1 : (n % 2 ^ 5).testBit i = n.testBit i := by rw [Nat.testBit_mod_two_pow]; simp [h5]
      have e2 : ((n + 32) % 2 ^ 5).testBit i = (n + 32).testBit i := by rw [Nat.testBit_mod_two_pow]; simp [h5]
      rw [← e1, ← e2]
      congr 1
      omega
    rw [this]
  · rcases Nat.lt_or_ge i 7 with h7 | h7
    · have : (8095 : Nat).testBit i = false := by
        rcases (by omega : i = 5 ∨ i = 6) with rfl | rfl <;> decide
      rw [this]; simp
    · have : n.testBit i = (n + 32).testBit i := by
        have e1 : (n / 2 ^ 7).testBit (i - 7) = n.testBit i := by rw [Nat.testBit_div_two_pow]; congr 1; omega
        have e2 : ((n + 32) / 2 ^ 7).testBit (i - 7) = (n + 32).testBit i := by rw [Nat.testBit_div_two_pow]; congr 1; omega
        rw [← e1, ← e2]
        congr 1
        omega
      rw [this]

example : (0 : Nat) % 128 < 96 ∧ (0 : Nat) + 32 < 2 ^ 64 := by decide

/-- A history in which the oldest of 33 entries is gone. -/
theorem C38_lost_violated : ∃ s, recordAll (init Nat) (List.range 33) = some s ∧ some 0 ∉ s.queue ∧ 33 ≤ SIZE := by
  obtain ⟨s, hs, hl⟩ := C38_never_outside (List.range 33)
  have h : (recordAll (init Nat) (List.range 33)).map (fun s => decide (some 0 ∈ s.queue)) = some false := by decide +kernel
  rw [hs] at h
  refine ⟨s, hs, ?_, by decide⟩
  simpa using h

/-- C38 is false of the API: nothing recorded can be retrieved (`ledger_info` returns None). -/
theorem C38_not_retrievable_violated {α : Type} (es : List α) (s : St α) (_h : recordAll (init α) es = some s) : ledgerInfo s = [] := rfl

end Pnumpy.Props
