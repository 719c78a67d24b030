import Verif.Props.Ledger
import Mathlib.Data.List.Induction
import Mathlib.Data.List.Nodup
/-
C38: exactly which entries the ledger ring keeps.
-/
namespace Pnumpy.Props
open Pnumpy.Ledger

theorem mask_split (a : Nat) : 8095 &&& a = a % 32 + 128 * (a / 128 % 64) := by
  have e : (8095 : Nat) = 63 <<< 7 ||| 31 := by decide
  rw [e, Nat.and_comm, Nat.and_or_distrib_left, show (31 : Nat) = 2 ^ 5 - 1 from rfl, Nat.and_two_pow_sub_one_eq_mod]
  have h : a &&& 63 <<< 7 = (a / 128 % 64) <<< 7 := by
    refine Nat.eq_of_testBit_eq fun i => ?_
    rw [Nat.testBit_and, Nat.testBit_shiftLeft, Nat.testBit_shiftLeft]
    rcases Nat.lt_or_ge i 7 with hi | hi
    · simp [Nat.not_le.mpr hi]
    · obtain ⟨j, rfl⟩ : ∃ j, i = 7 + j := ⟨i - 7, by omega⟩
      rw [show (64 : Nat) = 2 ^ 6 from rfl, Nat.testBit_mod_two_pow, show (128 : Nat) = 2 ^ 7 from rfl, Nat.testBit_div_two_pow,
        show (63 : Nat) = 2 ^ 6 - 1 from rfl, Nat.testBit_two_pow_sub_one, show 7 + j - 7 = j by omega, Nat.add_comm j 7]
      simp [Bool.and_comm]
  rw [h, ← Nat.shiftLeft_add_eq_or_of_lt (by omega : a % 2 ^ 5 < 2 ^ 7), Nat.shiftLeft_eq]
  omega

/-- The place of call number `n`. -/
theorem slot_value (n : Nat) (hn : n < 2 ^ 64) : slotOf (BitVec.ofNat 64 n) = n % 32 + 128 * (n / 128 % 64) := by
  unfold slotOf MASK
  rw [BitVec.toNat_and, BitVec.toNat_ofNat, BitVec.toNat_ofNat, Nat.mod_eq_of_lt hn, Nat.mod_eq_of_lt (by decide : 8095 < 2 ^ 64)]
  exact mask_split n

theorem record_append {α : Type} : ∀ (a : List α) (x : α) (s : St α),
    recordAll s (a ++ [x]) = (recordAll s a).bind fun s' => record s' x
  | [], x, s => by simp [recordAll]
  | y :: a, x, s => by
    simp only [List.cons_append, recordAll]
    rw [Option.bind_assoc]
    exact congrArg _ (funext fun s' => record_append a x s')

/-- What is in each place: the last call that belongs there. -/
theorem ring_contents {α : Type} (es : List α) : ∃ s, recordAll (init α) es = some s ∧ s.queue.length = 8096 ∧
    s.tail = BitVec.ofNat 64 es.length ∧
    ∀ k e, s.queue[k]? = some (some e) ↔ ∃ n, es[n]? = some e ∧ slotOf (BitVec.ofNat 64 n) = k ∧
      ∀ m, n < m → m < es.length → slotOf (BitVec.ofNat 64 m) ≠ k := by
  induction es using List.reverseRecOn with
  | nil =>
    refine ⟨_, rfl, List.length_replicate, rfl, fun k e => ?_⟩
    simp only [init, List.getElem?_replicate]
    split <;> simp
  | append_singleton es x ih =>
    obtain ⟨s, hs, hl, ht, hq⟩ := ih
    have hlt : slotOf s.tail < s.queue.length := by
      rw [hl]; unfold slotOf MASK; rw [BitVec.toNat_and]
      have := @Nat.and_le_left (8095#64).toNat s.tail.toNat
      have h : (8095#64).toNat = 8095 := rfl
      omega
    refine ⟨{ tail := s.tail + 1, queue := s.queue.set (slotOf s.tail) (some x) }, ?_, by simp [hl], ?_, fun k e => ?_⟩
    · rw [record_append, hs, Option.bind_some, record, if_pos hlt]
    · simp only [ht, List.length_append, List.length_singleton]
      rw [BitVec.ofNat_add]; rfl
    · simp only
      rw [List.getElem?_set]
      by_cases hk : slotOf s.tail = k
      · subst hk
        rw [if_pos rfl, if_pos hlt]
        constructor
        · intro h
          have : x = e := by simpa using h
          subst this
          exact ⟨es.length, by simp, by rw [ht], fun m h1 h2 => by simp at h2; omega⟩
        · rintro ⟨n, h1, h2, h3⟩
          by_cases hn : n = es.length
          · subst hn; simpa using h1
          · have hlen : n < (es ++ [x]).length := (List.getElem?_eq_some_iff.mp h1).1
            simp only [List.length_append, List.length_singleton] at hlen h3
            exact absurd (by rw [ht]) (h3 es.length (by omega) (by omega))
      · rw [if_neg hk, hq]
        constructor
        · rintro ⟨n, h1, h2, h3⟩
          have hlen : n < es.length := (List.getElem?_eq_some_iff.mp h1).1
          refine ⟨n, by rw [List.getElem?_append_left hlen]; exact h1, h2, fun m h4 h5 => ?_⟩
          simp only [List.length_append, List.length_singleton] at h5
          by_cases hm : m = es.length
          · subst hm; rw [← ht]; exact hk
          · exact h3 m h4 (by omega)
        · rintro ⟨n, h1, h2, h3⟩
          have hlen : n < (es ++ [x]).length := (List.getElem?_eq_some_iff.mp h1).1
          simp only [List.length_append, List.length_singleton] at hlen h3
          have hn : n ≠ es.length := by
            rintro rfl; rw [← ht] at h2; exact hk h2
          refine ⟨n, by rw [List.getElem?_append_left (by omega)] at h1; exact h1, h2, fun m h4 h5 => h3 m h4 (by omega)⟩

/-- **C38, exactly what is kept**: after any number of different calls (fewer than 2^64), call number `n` is still in the ring if and
only if no later call has both the same number modulo 32 and the same 128-call block modulo 64.  The claim that the last 8096
calls are kept is false (`C38_overwritten_violated`). -/
theorem C38_kept_iff_partial {α : Type} (es : List α) (hd : es.Nodup) (hlen : es.length < 2 ^ 64) :
    ∃ s, recordAll (init α) es = some s ∧ ∀ n e, es[n]? = some e →
      (some e ∈ s.queue ↔ ∀ m, n < m → m < es.length → ¬ (m % 32 = n % 32 ∧ m / 128 % 64 = n / 128 % 64)) := by
  obtain ⟨s, hs, _, _, hq⟩ := ring_contents es
  refine ⟨s, hs, fun n e hn => ?_⟩
  have hnl : n < es.length := (List.getElem?_eq_some_iff.mp hn).1
  constructor
  · intro hmem m h1 h2 ⟨h3, h4⟩
    obtain ⟨k, hk⟩ := List.mem_iff_getElem?.mp hmem
    obtain ⟨n', g1, g2, g3⟩ := (hq k e).mp hk
    have hn' : n' < es.length := (List.getElem?_eq_some_iff.mp g1).1
    have : n' = n := by
      have := (List.getElem?_inj hn' hd).mp (g1.trans hn.symm)
      exact this
    subst this
    refine g3 m h1 h2 ?_
    rw [slot_value m (by omega), h3, h4, ← slot_value n' (by omega)]
    exact g2
  · intro h
    refine List.mem_of_getElem? ((hq (slotOf (BitVec.ofNat 64 n)) e).mpr ⟨n, hn, rfl, fun m h1 h2 => ?_⟩)
    rw [slot_value m (by omega), slot_value n (by omega)]
    intro heq
    exact h m h1 h2 ⟨by omega, by omega⟩

/-- **C38 violated** in numbers: however many calls are recorded (fewer than 2^64), the ring of 8096 places never holds more than
2048 entries. -/
theorem C38_capacity_violated {α : Type} (es : List α) (hlen : es.length < 2 ^ 64) :
    ∃ s, recordAll (init α) es = some s ∧ s.queue.length = 8096 ∧ (s.queue.filter Option.isSome).length ≤ 2048 := by
  obtain ⟨s, hs, hl, _, hq⟩ := ring_contents es
  refine ⟨s, hs, hl, ?_⟩
  have hmap : s.queue = (List.range 8096).map fun k => s.queue.getD k none := by
    refine List.ext_getElem? fun k => ?_
    rw [List.getElem?_map]
    by_cases hk : k < 8096
    · rw [List.getElem?_range hk, Option.map_some, List.getD_eq_getElem?_getD, List.getElem?_eq_getElem (by omega)]; rfl
    · rw [List.getElem?_eq_none (by omega), List.getElem?_eq_none (by rw [List.length_range]; omega)]; rfl
  rw [← List.countP_eq_length_filter, hmap, List.countP_map]
  have hc : (List.range 8096).countP (fun k => decide (k % 128 < 32)) = 2048 := by decide +kernel
  rw [← hc]
  refine List.countP_mono_left fun k _ h => ?_
  simp only [Function.comp] at h
  obtain ⟨e, he⟩ := Option.isSome_iff_exists.mp h
  rw [List.getD_eq_getElem?_getD] at he
  have : s.queue[k]? = some (some e) := by
    cases h0 : s.queue[k]? with
    | none => rw [h0] at he; cases he
    | some o => rw [h0] at he; simp only [Option.getD_some] at he; rw [he]
  obtain ⟨n, g1, g2, _⟩ := (hq k e).mp this
  have hn : n < es.length := (List.getElem?_eq_some_iff.mp g1).1
  rw [slot_value n (by omega)] at g2
  simp only [decide_eq_true_eq]
  omega

/-- Case of both: 8096 calls, all different. -/
example := C38_kept_iff_partial (List.range 8096) List.nodup_range (by simp)
example := C38_capacity_violated (List.range 8096) (by simp)

/-- With as many calls as the ring has places, call 0 is gone and the last one is there. -/
example : (∀ m, 0 < m → m < 8096 → ¬ (m % 32 = 0 % 32 ∧ m / 128 % 64 = 0 / 128 % 64)) = False := by
  simp only [eq_iff_iff, iff_false]
  intro h
  exact h 32 (by omega) (by omega) (by omega)

end Pnumpy.Props
