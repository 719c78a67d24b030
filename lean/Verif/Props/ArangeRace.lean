import Verif.Proofs.ArangeRace
import Verif.Props.Arange
/-
Property theorem C34: exactly which arrays the threaded fill function of np.arange can leave.
-/
namespace Pnumpy.Props
open Spec Pnumpy.Arange Pnumpy.Chunks

variable {α : Type}

/-- **C34 (part)**, exactly what the threads can leave, for any element type in which first + 0 * step is first: every block of 16384 elements but
the first may, independently of the others, have been computed with the second element as numpy stored it, or as the first block has
rewritten it; the first block uses the one numpy stored. -/
theorem C34_threaded_exact_partial (ops : Ops α) (F S : α) (rest : List α) (hn : 65536 ≤ rest.length + 2) (hF : ∀ d, ops.elem F 0 d = F) (out : List α) :
    Arange.Result ops true (F :: S :: rest) out ↔
      ∃ late : Nat → Bool, out = (List.range (rest.length + 2)).map fun i =>
        ops.elem F i (ops.sub (if 16384 ≤ i ∧ late (i / 16384) = true then ops.elem F 1 (ops.sub S F) else S) F) := by
  classical
  constructor
  · rintro ⟨calls, s, hc, hr, hd, rfl⟩
    have hb := blocks_of hc
    have hi := race_reach hb hF (race_begin (F := F) (S := S) rfl rfl rfl) hr
    refine ⟨fun b => decide (¬ ∃ k ln i, calls[k]? = some (16384 * b, ln) ∧ s.pc k = .fill F (ops.sub S F) i), ?_⟩
    apply List.ext_getElem?
    intro j
    by_cases hj : j < rest.length + 2
    · obtain ⟨k, ln, hk, hj2⟩ := hb.cover j hj
      obtain ⟨f, d, hp⟩ := hd k _ _ hk
      obtain ⟨rfl, hdd, _, _, h5⟩ := hi.fill _ _ _ _ _ _ hk hp
      rw [h5 j (by omega) hj2, List.getElem?_map, List.getElem?_range hj]
      simp only [Option.map_some, Option.some.injEq]
      congr 1
      split
      · next h =>
        rcases hdd with rfl | ⟨_, rfl⟩
        · exact absurd ⟨k, ln, _, hk, hp⟩ (of_decide_eq_true h.2)
        · rfl
      · next h =>
        rcases hdd with rfl | ⟨h0, hd'⟩
        · rfl
        · by_cases hx : ∃ k ln i, calls[k]? = some (16384 * (j / 16384), ln) ∧ s.pc k = .fill f (ops.sub S f) i
          · obtain ⟨k', ln', i, hk', hp'⟩ := hx
            obtain rfl := hb.inj _ _ _ _ _ hk hk'
            rw [hp] at hp'
            cases hp'; rfl
          · exact absurd ⟨by omega, decide_eq_true hx⟩ h
    · rw [List.getElem?_eq_none (by rw [hi.len]; exact Nat.not_lt.1 hj), List.getElem?_eq_none (by simp; omega)]
  · rintro ⟨late, rfl⟩
    obtain ⟨calls, hc⟩ := calls_exist hn
    have hb := blocks_of hc
    obtain ⟨k0, ln0, hk0, hln0⟩ := hb.cover 1 (by omega)
    rw [show 16384 * (1 / 16384) = 0 by omega] at hk0 hln0
    let ksOf : Bool → List Nat := fun v => (List.range calls.length).filter fun k => decide (0 < (calls.getD k (0, 0)).1) && (late ((calls.getD k (0, 0)).1 / 16384) == v)
    have hks : ∀ v k st ln, calls[k]? = some (st, ln) → (k ∈ ksOf v ↔ 0 < st ∧ late (st / 16384) = v) := by
      intro v k st ln hk
      have hlt : k < calls.length := (List.getElem?_eq_some_iff.1 hk).1
      have he : calls.getD k (0, 0) = (st, ln) := by rw [List.getD_eq_getElem?_getD, hk]; rfl
      simp only [ksOf, List.mem_filter, List.mem_range, he, Bool.and_eq_true, decide_eq_true_eq, beq_iff_eq]
      exact ⟨fun h => h.2, fun h => ⟨hlt, h⟩⟩
    have hin : ∀ v k, k ∈ ksOf v → ∃ st ln : Nat, calls[k]? = some (st, ln) ∧ 0 < st := by
      intro v k hk
      have hlt : k < calls.length := List.mem_range.1 (List.mem_filter.1 hk).1
      have he : calls[k]? = some (calls[k].1, calls[k].2) := List.getElem?_eq_getElem hlt
      exact ⟨_, _, he, ((hks v k _ _ he).1 hk).1⟩
    have hnd : ∀ v, (ksOf v).Nodup := fun v => List.Nodup.filter _ List.nodup_range
    -- the blocks that are not late
    obtain ⟨s1, a1, a2, a3, a4, a5⟩ := run_some (ops := ops) (F := F) (X := S) hb (ksOf false) (begin (F :: S :: rest)) (hnd _) rfl rfl rfl
      (fun k hk => ⟨rfl, hin false k hk⟩)
    have low : ∀ v j, j < 16384 → ∀ k st ln, k ∈ ksOf v → calls[k]? = some (st, ln) → ¬ (st ≤ j ∧ j < st + ln) := by
      intro v j hj k st ln hk hkc
      obtain ⟨h0, _⟩ := (hks v k st ln hkc).1 hk
      obtain ⟨_, _, b, rfl⟩ := hb.bound _ _ _ hkc
      omega
    have hk0n : ∀ v, k0 ∉ ksOf v := fun v h => by have := ((hks v k0 0 ln0 hk0).1 h).1; omega
    -- the first block
    obtain ⟨s2, b1, b2, b3, b4⟩ := run_call (ops := ops) hk0 (s := s1) (by rw [a2]; exact (hb.bound _ _ _ hk0).1)
      (by rw [a5 0 (low _ 0 (by decide))]; rfl) (by rw [a5 1 (low _ 1 (by decide))]; rfl) (by rw [a3 k0 (hk0n _)]; rfl)
    -- the late ones
    obtain ⟨s3, c1, c2, c3, c4, c5⟩ := run_some (ops := ops) (F := F) (X := ops.elem F 1 (ops.sub S F)) hb (ksOf true) s2 (hnd _) (by omega)
      (by rw [b4, if_pos (by omega), hF]) (by rw [b4, if_pos (by omega)])
      (fun k hk => ⟨by
        have h1 : k ≠ k0 := fun e => hk0n _ (e ▸ hk)
        have h2 : k ∉ ksOf false := fun h => by
          obtain ⟨st, ln, hkc, _⟩ := hin true k hk
          have e1 := ((hks _ _ _ _ hkc).1 hk).2
          have e2 := ((hks _ _ _ _ hkc).1 h).2
          rw [e1] at e2; cases e2
        rw [b3, upd_ne _ h1, a3 k h2]; rfl, hin true k hk⟩)
    have final : ∀ k st ln, calls[k]? = some (st, ln) →
        (∃ f d, s3.pc k = .fill f d (st + ln)) ∧ ∀ j, st ≤ j → j < st + ln →
          s3.mem[j]? = some (ops.elem F j (ops.sub (if 16384 ≤ j ∧ late (j / 16384) = true then ops.elem F 1 (ops.sub S F) else S) F)) := by
      intro k st ln hkc
      obtain ⟨_, hl1, b, hstb⟩ := hb.bound _ _ _ hkc
      rcases Nat.eq_zero_or_pos st with h0 | h0
      · subst h0
        obtain rfl := hb.inj _ _ _ _ _ hk0 hkc
        rw [hk0] at hkc
        obtain ⟨_, rfl⟩ := Prod.mk.inj (Option.some.inj hkc)
        refine ⟨⟨_, _, by rw [c3 _ (hk0n _), b3, upd_self]⟩, fun j h1 h2 => ?_⟩
        rw [c5 j (low _ j (by omega)), b4, if_pos ⟨h1, h2⟩, if_neg (by omega)]
      · cases hl : late (st / 16384) with
        | true =>
          obtain ⟨d1, d2⟩ := c4 k st ln ((hks _ _ _ _ hkc).2 ⟨h0, hl⟩) hkc
          refine ⟨⟨_, _, d1⟩, fun j h1 h2 => ?_⟩
          rw [d2 j h1 h2, if_pos ⟨by omega, by rw [show j / 16384 = st / 16384 by omega]; exact hl⟩]
        | false =>
          have hm : k ∈ ksOf false := (hks _ _ _ _ hkc).2 ⟨h0, hl⟩
          obtain ⟨d1, d2⟩ := a4 k st ln hm hkc
          have hnt : k ∉ ksOf true := fun h => by have := ((hks _ _ _ _ hkc).1 h).2; rw [hl] at this; cases this
          have hne : k ≠ k0 := fun e => hk0n _ (e ▸ hm)
          refine ⟨⟨_, _, by rw [c3 _ hnt, b3, upd_ne _ hne]; exact d1⟩, fun j h1 h2 => ?_⟩
          rw [c5 j (fun k2 st2 ln2 hk2 hc2 ⟨h3, h4⟩ => hnt (by
              obtain rfl := hb.apart hc2 hkc h3 h4 h1 h2
              exact hk2)), b4, if_neg (fun h => hne (hb.apart hkc hk0 h1 h2 h.1 h.2)), d2 j h1 h2,
            if_neg (fun h => by rw [show j / 16384 = st / 16384 by omega, hl] at h; cases h.2)]
    refine ⟨calls, s3, hc, (a1.trans b1).trans c1, fun k st ln hkc => (final k st ln hkc).1, ?_⟩
    apply List.ext_getElem?
    intro j
    by_cases hj : j < rest.length + 2
    · obtain ⟨k, ln, hk, hj2⟩ := hb.cover j hj
      rw [(final k _ _ hk).2 j (by omega) hj2, List.getElem?_map, List.getElem?_range hj]
      rfl
    · rw [List.getElem?_eq_none (by simp; omega), List.getElem?_eq_none (by rw [c2]; exact Nat.not_lt.1 hj)]

/-- **C34 (part)** for floats (integral values, no overflow): a threaded np.arange gives the same array under every schedule if and only if no element
from number 16384 on depends on whether the second element is read before or after the first block has rewritten it; it is then the unthreaded array. -/
theorem C34_schedule_iff_partial (p : Nat) (F S : Int) (hF : rnd p F = F) (rest : List Int) (hn : 65536 ≤ rest.length + 2) :
    let value (second : Int) (i : Nat) : Int := rnd p (F + rnd p (rnd p i * rnd p (second - F)))
    (∀ out, Arange.Result (floatOps p) true (F :: S :: rest) out → out = (List.range (rest.length + 2)).map (value S)) ↔
      ∀ i, 16384 ≤ i → i < rest.length + 2 → value (value S 1) i = value S i := by
  intro value
  have r0 : rnd p 0 = 0 := by
    unfold rnd
    simp
  have h0 : ∀ d, (floatOps p).elem F 0 d = F := fun d => by show rnd p (F + rnd p (rnd p ((0 : Nat) : Int) * d)) = F; simp [r0, hF]
  constructor
  · intro h i hi1 hi2
    have := h _ ((C34_threaded_exact_partial (floatOps p) F S rest hn h0 _).2 ⟨fun _ => true, rfl⟩)
    have := congrArg (·[i]?) this
    simp only [List.getElem?_map, List.getElem?_range hi2, Option.map_some, Option.some.injEq, and_true, if_pos hi1] at this
    exact this
  · intro h out ho
    obtain ⟨late, rfl⟩ := (C34_threaded_exact_partial (floatOps p) F S rest hn h0 _).1 ho
    refine List.map_congr_left fun i hi => ?_
    have hi := List.mem_range.1 hi
    split
    · next hc => exact h i hc.1 hi
    · rfl

/-- Case: float32, first value -(2^24 - 3), second value -(2^25 - 2): element 16384 depends on the schedule; the second element becomes another. -/
example : let value (second : Int) (i : Nat) : Int := rnd 24 (-(2 ^ 24 - 3) + rnd 24 (rnd 24 i * rnd 24 (second - -(2 ^ 24 - 3))))
    rnd 24 (-(2 ^ 24 - 3)) = -(2 ^ 24 - 3) ∧ value (-(2 ^ 25 - 2)) 1 ≠ -(2 ^ 25 - 2) ∧
      value (value (-(2 ^ 25 - 2)) 1) 16384 ≠ value (-(2 ^ 25 - 2)) 16384 := by decide +kernel

/-- Case: 65536 elements of np.arange(1e6, .., 3) in float32. -/
example (out : List Int) (h : Arange.Result (floatOps 24) true (1000000 :: 1000003 :: List.replicate 65534 0) out) :
    ∃ late : Nat → Bool, out = (List.range 65536).map fun i =>
      (floatOps 24).elem 1000000 i ((floatOps 24).sub (if 16384 ≤ i ∧ late (i / 16384) = true then (floatOps 24).elem 1000000 1 ((floatOps 24).sub 1000003 1000000) else 1000003) 1000000) := by
  have := (C34_threaded_exact_partial (floatOps 24) 1000000 1000003 (List.replicate 65534 0) (by rw [List.length_replicate]) (fun d => by
    show rnd 24 (1000000 + rnd 24 (rnd 24 ((0 : Nat) : Int) * d)) = 1000000
    rw [show rnd 24 ((0 : Nat) : Int) = 0 by decide, Int.zero_mul]; decide) out).1 h
  rw [List.length_replicate] at this
  exact this

end Pnumpy.Props
