import Verif.Proofs.Arange
import Verif.Spec.Arange
/-
Property theorems C34: the hooked fill function of np.arange.
-/
namespace Pnumpy.Props
open Spec Pnumpy.Arange Pnumpy.Chunks

variable {α : Type}

/-- From any state in which every call is finished or not begun, all calls can finish. -/
theorem arange_finish (ops : Ops α) (calls : List (Nat × Nat)) {n : Nat} (hn : 2 ≤ n) (hb : ∀ c ∈ calls, c.1 + c.2 ≤ n) (s : State α) (hlen : s.mem.length = n)
    (hpc : ∀ k st ln, calls[k]? = some (st, ln) → s.pc k = .start ∨ ∃ f d, s.pc k = .fill f d (st + ln)) :
    ∃ s', Reach ops calls s s' ∧ Done calls s' ∧ s'.mem.length = n ∧
      ∀ j : Nat, (∀ k st ln, calls[k]? = some (st, ln) → s.pc k = .start → ¬ (st ≤ j ∧ j < st + ln)) → s'.mem[j]? = s.mem[j]? := by
  have : ∀ m, m ≤ calls.length → ∃ s', Reach ops calls s s' ∧ s'.mem.length = n ∧ (∀ k st ln, k < m → calls[k]? = some (st, ln) → ∃ f d, s'.pc k = .fill f d (st + ln)) ∧
      (∀ k, m ≤ k → s'.pc k = s.pc k) ∧
      ∀ j : Nat, (∀ k st ln, calls[k]? = some (st, ln) → s.pc k = .start → ¬ (st ≤ j ∧ j < st + ln)) → s'.mem[j]? = s.mem[j]? := by
    intro m
    induction m with
    | zero => intro _; exact ⟨s, .refl, hlen, fun k _ _ h => (by omega), fun _ _ => rfl, fun _ _ => rfl⟩
    | succ m ih =>
      intro hm
      obtain ⟨s1, h1, h2, h3, h4, h5⟩ := ih (by omega)
      have hk : calls[m]? = some (calls[m].1, calls[m].2) := List.getElem?_eq_getElem (by omega)
      rcases hpc m _ _ hk with hp | ⟨f, d, hp⟩
      · have hle := hb _ (List.mem_of_getElem? hk)
        simp only at hle
        obtain ⟨s2, g1, g2, g3, g4⟩ := run_call (ops := ops) hk (s := s1) (by omega) (List.getElem?_eq_getElem (by omega)) (List.getElem?_eq_getElem (by omega)) (by rw [h4 m (Nat.le_refl _)]; exact hp)
        refine ⟨s2, h1.trans g1, by omega, ?_, ?_, ?_⟩
        · intro k st ln hkm hkc
          rw [g3]
          by_cases hkk : k = m
          · subst hkk
            rw [hk] at hkc
            obtain ⟨rfl, rfl⟩ := Prod.mk.inj (Option.some.inj hkc)
            exact ⟨_, _, upd_self _ _ _⟩
          · rw [upd_ne _ hkk]; exact h3 k st ln (by omega) hkc
        · intro k hkm
          rw [g3, upd_ne _ (by omega)]; exact h4 k (by omega)
        · intro j hj
          rw [g4 j, if_neg (hj m _ _ hk hp)]; exact h5 j hj
      · refine ⟨s1, h1, h2, ?_, fun k hkm => h4 k (by omega), h5⟩
        intro k st ln hkm hkc
        by_cases hkk : k = m
        · subst hkk
          rw [hk] at hkc
          obtain ⟨rfl, rfl⟩ := Prod.mk.inj (Option.some.inj hkc)
          exact ⟨f, d, by rw [h4 k (Nat.le_refl _)]; exact hp⟩
        · exact h3 k st ln (by omega) hkc
  obtain ⟨s', h1, h2, h3, h4, h5⟩ := this calls.length (Nat.le_refl _)
  exact ⟨s', h1, fun k st ln hk => h3 k st ln (List.getElem?_eq_some_iff.1 hk).1 hk, h2, h5⟩

theorem calls_bound {n : Nat} {t : Bool} {calls : List (Nat × Nat)} (h : Calls n t calls) :
    (∀ c ∈ calls, c.1 + c.2 ≤ n) ∧ ∀ j, j < n → ∃ k st ln : Nat, calls[k]? = some (st, ln) ∧ st ≤ j ∧ j < st + ln := by
  obtain ⟨parts, hp, hcon⟩ := calls_parts h
  refine ⟨fun c hc => (hcon.mem (hp.mem_iff.1 hc)).2, fun j hj => ?_⟩
  have : ∀ (parts : List (Nat × Nat)) a, Consec n a parts → a ≤ j → ∃ c ∈ parts, c.1 ≤ j ∧ j < c.1 + c.2 := by
    intro parts
    induction parts with
    | nil => intro a h1 h2; have : a = n := h1; omega
    | cons p ps ih =>
      intro a h1 h2
      obtain ⟨s, l⟩ := p
      obtain ⟨rfl, h1⟩ := h1
      by_cases h : j < s + l
      · exact ⟨(s, l), by simp, h2, h⟩
      · obtain ⟨c, hc, h3⟩ := ih _ h1 (by omega)
        exact ⟨c, by simp [hc], h3⟩
  obtain ⟨c, hc, h1, h2⟩ := this parts 0 hcon (by omega)
  obtain ⟨k, hk⟩ := List.mem_iff_getElem?.1 (hp.mem_iff.2 hc)
  exact ⟨k, c.1, c.2, hk, h1, h2⟩

/-- C34, core: any element type for which elements 0 and 1 come out as they were. -/
theorem arange_core (ops : Ops α) (mem : List α) (F S : α) (hn : 2 ≤ mem.length) (h0 : mem[0]? = some F) (h1 : mem[1]? = some S)
    (hF : ops.elem F 0 (ops.sub S F) = F) (hS : ops.elem F 1 (ops.sub S F) = S) (threaded : Bool) :
    (∀ out, Arange.Result ops threaded mem out → out = (List.range mem.length).map fun i => ops.elem F i (ops.sub S F)) ∧
    ¬ Arange.Faults ops threaded mem ∧ ((threaded = true → 65536 ≤ mem.length) → ∃ out, Arange.Result ops threaded mem out) := by
  refine ⟨?_, ?_, ?_⟩
  · rintro out ⟨calls, s, hc, hr, hd, rfl⟩
    obtain ⟨b1, b2⟩ := calls_bound hc
    have hi := inv_reach b1 hF hS (inv_begin rfl h0 h1) hr
    apply List.ext_getElem?
    intro j
    by_cases hj : j < mem.length
    · obtain ⟨k, st, ln, hk, hj1, hj2⟩ := b2 j hj
      obtain ⟨f, d, hp⟩ := hd k st ln hk
      rw [(hi.fill k st ln f d _ hk hp).2.2.2.2 j hj1 hj2, List.getElem?_map, List.getElem?_range hj]; rfl
    · rw [List.getElem?_eq_none (by rw [hi.len]; omega), List.getElem?_eq_none (by simp; omega)]
  · rintro ⟨calls, s, hc, hr, hs⟩
    obtain ⟨b1, b2⟩ := calls_bound hc
    have hi := inv_reach b1 hF hS (inv_begin rfl h0 h1) hr
    obtain ⟨_, e, _⟩ := inv_step b1 hF hS hi hs
    cases e
  · intro ht
    have : ∃ calls, Calls mem.length threaded calls := by
      cases threaded with
      | false => exact ⟨_, .serial⟩
      | true => exact calls_exist (ht rfl)
    obtain ⟨calls, hc⟩ := this
    obtain ⟨s', g1, g2, _⟩ := arange_finish ops calls hn (calls_bound hc).1 (begin mem) rfl (fun _ _ _ _ => Or.inl rfl)
    exact ⟨_, calls, s', hc, g1, g2, rfl⟩

/-- **C34** (all integer types): for every width up to 64 bits, signed or not, every first value, step, length and interleaving of the chunks'
reads and writes, np.arange is filled with first + i * step (modulo 2^w); nothing outside the buffer is touched, and the
call can finish. -/
theorem C34_integers (w : Nat) (hw : w ≤ 64) (signed : Bool) (first step : BitVec w) (rest : List (BitVec w)) (threaded : Bool) :
    (∀ out, Arange.Result (intOps w signed) threaded (first :: (first + step) :: rest) out → out = arangeInt w first step (rest.length + 2)) ∧
    ¬ Arange.Faults (intOps w signed) threaded (first :: (first + step) :: rest) ∧
    ((threaded = true → 65536 ≤ rest.length + 2) → ∃ out, Arange.Result (intOps w signed) threaded (first :: (first + step) :: rest) out) := by
  have hsub : (intOps w signed).sub (first + step) first = step := by
    show first + step - first = step
    rw [BitVec.add_comm, BitVec.add_sub_cancel]
  have := arange_core (intOps w signed) (first :: (first + step) :: rest) first (first + step) (by simp) rfl rfl
    (by rw [hsub, int_elem hw]; simp) (by rw [hsub, int_elem hw]; simp) threaded
  rw [hsub] at this
  simp only [int_elem hw] at this
  exact this

/-- arange(5, .., -3) as int8. -/
example : ∃ out, Arange.Result (intOps 8 true) false [5#8, 2#8, 99#8, 99#8] out ∧ out = [5#8, 2#8, 255#8, 252#8] := by
  obtain ⟨h1, _, h3⟩ := C34_integers 8 (by decide) true 5#8 (-3#8) [99#8, 99#8] false
  obtain ⟨out, ho⟩ := h3 (by simp)
  have e : (5#8 + -3#8 : BitVec 8) = 2#8 := by decide
  rw [e] at ho h1
  exact ⟨out, ho, by rw [h1 out ho]; decide⟩

/-- C34 without threads, for any element type: first + i * (second - first) in that type's arithmetic. -/
theorem C34_serial (ops : Ops α) (F S : α) (rest : List α) (out : List α) (h : Arange.Result ops false (F :: S :: rest) out) :
    out = (List.range (rest.length + 2)).map fun i => ops.elem F i (ops.sub S F) := by
  obtain ⟨calls, s, hc, hr, hd, rfl⟩ := h
  rw [calls_serial hc] at hr hd
  have hinv : s.mem.length = rest.length + 2 ∧ ((s.pc 0 = .start ∧ s.mem = F :: S :: rest) ∨ (s.pc 0 = .gotFirst F ∧ s.mem = F :: S :: rest) ∨
      ∃ i, s.pc 0 = .fill F (ops.sub S F) i ∧ ∀ j, j < i → s.mem[j]? = some (ops.elem F j (ops.sub S F))) := by
    clear hd
    induction hr with
    | refl => exact ⟨rfl, Or.inl ⟨rfl, rfl⟩⟩
    | @step s s' _ hs ih =>
      obtain ⟨hl, ih⟩ := ih
      generalize hr : some s' = r at hs
      have h0 : ∀ {k st ln}, ([(0, (F :: S :: rest).length)] : List (Nat × Nat))[k]? = some (st, ln) → k = 0 := by
        intro k st ln h
        have := (List.getElem?_eq_some_iff.1 h).1
        simpa using this
      cases hs with
      | @read0 k st ln hk hp =>
        have := h0 hk; subst this
        rcases ih with ⟨_, hm⟩ | ⟨hp', _⟩ | ⟨i, hp', _⟩
        · rw [hm] at hr
          obtain rfl := Option.some.inj hr
          refine ⟨by simp only; rw [← hm]; exact hl, Or.inr (Or.inl ⟨by simp only [upd_self], ?_⟩)⟩
          first | rfl | exact hm
        · rw [hp] at hp'; cases hp'
        · rw [hp] at hp'; cases hp'
      | @read1 k st ln f hk hp =>
        have := h0 hk; subst this
        rcases ih with ⟨hp', _⟩ | ⟨hp', hm⟩ | ⟨i, hp', _⟩
        · rw [hp] at hp'; cases hp'
        · rw [hp] at hp'
          cases hp'
          rw [hm] at hr
          obtain rfl := Option.some.inj hr
          obtain ⟨rfl, rfl⟩ := by simpa using hk
          exact ⟨by simp only; rw [← hm]; exact hl, Or.inr (Or.inr ⟨0, by simp only [upd_self], fun j hj => by omega⟩)⟩
        · rw [hp] at hp'; cases hp'
      | @write k st ln i f d hk hp hlt =>
        have := h0 hk; subst this
        rcases ih with ⟨hp', _⟩ | ⟨hp', hm⟩ | ⟨i', hp', hm⟩
        · rw [hp] at hp'; cases hp'
        · rw [hp] at hp'; cases hp'
        · rw [hp] at hp'
          cases hp'
          obtain ⟨rfl, rfl⟩ := by simpa using hk
          have hin : i < s.mem.length := by omega
          rw [Pnumpy.Sort.put, if_pos hin] at hr
          obtain rfl := Option.some.inj hr
          refine ⟨by simpa using hl, Or.inr (Or.inr ⟨i + 1, by simp only [upd_self], fun j hj => ?_⟩)⟩
          by_cases hij : i = j
          · subst hij; exact List.getElem?_set_self hin
          · simp only
            rw [List.getElem?_set_ne hij]; exact hm j (by omega)
  obtain ⟨f, d, hp⟩ := hd 0 0 _ rfl
  obtain ⟨hl, hinv⟩ := hinv
  rcases hinv with ⟨hp', _⟩ | ⟨hp', _⟩ | ⟨i, hp', hm⟩
  · rw [hp] at hp'; cases hp'
  · rw [hp] at hp'; cases hp'
  · rw [hp] at hp'
    cases hp'
    apply List.ext_getElem?
    intro j
    by_cases hj : j < rest.length + 2
    · rw [hm j (by simpa using hj), List.getElem?_map, List.getElem?_range hj]; rfl
    · rw [List.getElem?_eq_none (by omega), List.getElem?_eq_none (by simp; omega)]

/-- C34, the rounding used for floats is IEEE's: a number of at most `p` bits is kept; another one, of `p + e` bits, becomes a multiple of
`2 ^ e` that is no further away than half of `2 ^ e`, and an even multiple when it is exactly half-way. -/
theorem C34_rounding (p : Nat) (hp : 1 ≤ p) (n : Int) :
    (n.natAbs < 2 ^ p → rnd p n = n) ∧
    ∀ e : Nat, 1 ≤ e → 2 ^ (p + e - 1) ≤ n.natAbs → n.natAbs < 2 ^ (p + e) →
      ∃ k : Int, rnd p n = k * 2 ^ e ∧ 2 * (n - rnd p n).natAbs ≤ 2 ^ e ∧ (2 * (n - rnd p n).natAbs = 2 ^ e → k % 2 = 0) := by
  refine ⟨fun h => by unfold rnd; simp only [if_pos h], fun e he h1 h2 => ?_⟩
  have hge : ¬ n.natAbs < 2 ^ p := by
    have : 2 ^ p ≤ 2 ^ (p + e - 1) := Nat.pow_le_pow_right (by decide) (by omega)
    omega
  have hlog : n.natAbs.log2 = p + e - 1 := by
    have hne : n.natAbs ≠ 0 := by have := Nat.pow_pos (a := 2) (n := p) (by decide); omega
    rw [Nat.log2_eq_iff hne]
    exact ⟨h1, by rw [show p + e - 1 + 1 = p + e by omega]; exact h2⟩
  unfold rnd
  simp only [if_neg hge, hlog]
  rw [show p + e - 1 + 1 - p = e by omega]
  have hpos : 0 < 2 ^ e := Nat.pow_pos (by decide)
  have hdm := Nat.div_add_mod n.natAbs (2 ^ e)
  have hml := Nat.mod_lt n.natAbs hpos
  generalize hQ : n.natAbs / 2 ^ e = q at *
  generalize hR : n.natAbs % 2 ^ e = r at *
  have hcast : ((2 ^ e : Nat) : Int) = (2 : Int) ^ e := by push_cast; rfl
  have hev : 2 ^ e % 2 = 0 := by
    obtain ⟨d, rfl⟩ : ∃ d, e = d + 1 := ⟨e - 1, by omega⟩
    rw [Nat.pow_succ]; omega
  rw [← hcast]
  generalize 2 ^ e = E at *
  refine ⟨n.sign * (if E < 2 * r ∨ (2 * r = E ∧ q % 2 = 1) then q + 1 else q : Nat), by push_cast; ring, ?_⟩
  have hs : n = n.sign * ((E * q + r : Nat) : Int) := by rw [hdm, Int.sign_mul_natAbs]
  have hs1 : n.sign = 1 ∨ n.sign = -1 := by
    rcases Int.lt_trichotomy n 0 with h | h | h
    · exact Or.inr (Int.sign_eq_neg_one_of_neg h)
    · subst h; simp at hge
    · exact Or.inl (Int.sign_eq_one_of_pos h)
  have key : ∀ m : Nat, (n - n.sign * (m : Int)).natAbs = (((E * q + r : Nat) : Int) - (m : Int)).natAbs := by
    intro m
    rcases hs1 with h | h <;> rw [h] at hs ⊢ <;> rw [hs] <;> omega
  split
  · rename_i hc
    have e1 : (n - n.sign * (((q + 1) * E : Nat) : Int)).natAbs = E - r := by
      rw [key]; rw [show (q + 1) * E = E * q + E by ring]; omega
    rw [e1]
    refine ⟨by omega, fun ht => ?_⟩
    have : q % 2 = 1 := by omega
    rcases hs1 with h | h <;> rw [h] <;> omega
  · rename_i hc
    have e1 : (n - n.sign * ((q * E : Nat) : Int)).natAbs = r := by
      rw [key]; rw [show q * E = E * q by ring]; omega
    rw [e1]
    refine ⟨by omega, fun ht => ?_⟩
    have : q % 2 = 0 := by omega
    rcases hs1 with h | h <;> rw [h] <;> omega

/-- Cases: 2^24 + 1 and 2^24 + 3 are half-way between two float32 numbers. -/
example : rnd 24 (2 ^ 24 + 1) = 2 ^ 24 ∧ rnd 24 (2 ^ 24 + 3) = 2 ^ 24 + 4 := by decide +kernel

example := (C34_rounding 24 (by decide) (2 ^ 24 + 3)).2 1 (by decide) (by decide +kernel) (by decide +kernel)

/-- C34, float types (partial: the difference of the first two values must be exact; integral values, no overflow): every interleaving gives the
same values, those of the unthreaded loop. -/
theorem C34_float_partial (p : Nat) (first step : Int) (rest : List Int) (threaded : Bool) (h1 : rnd p first = first) (h2 : rnd p (first + step) = first + step)
    (h3 : rnd p step = step) (hp : 1 ≤ p) :
    (∀ out, Arange.Result (floatOps p) threaded (first :: (first + step) :: rest) out →
      out = (List.range (rest.length + 2)).map fun (i : Nat) => rnd p (first + rnd p (rnd p i * step))) ∧
    ¬ Arange.Faults (floatOps p) threaded (first :: (first + step) :: rest) := by
  have hsub : (floatOps p).sub (first + step) first = step := by
    show rnd p (first + step - first) = step
    rw [Int.add_comm, Int.add_sub_cancel, h3]
  have r0 : rnd p 0 = 0 := by unfold rnd; simp
  have r1 : rnd p 1 = 1 := by
    unfold rnd
    have : 2 ^ 1 ≤ 2 ^ p := Nat.pow_le_pow_right (by decide) hp
    simp only [Int.natAbs_one]
    rw [if_pos (by omega)]
  have := arange_core (floatOps p) (first :: (first + step) :: rest) first (first + step) (by simp) rfl rfl
    (by rw [hsub]; show rnd p (first + rnd p (rnd p ((0 : Nat) : Int) * step)) = first; simp [r0, h1])
    (by rw [hsub]; show rnd p (first + rnd p (rnd p ((1 : Nat) : Int) * step)) = first + step; simp [r1, h2, h3]) threaded
  rw [hsub] at this
  exact ⟨this.1, this.2.1⟩

/-- Hypotheses met by np.arange(1e6, .., 3) in float32. -/
example : rnd 24 1000000 = 1000000 ∧ rnd 24 (1000000 + 3) = 1000000 + 3 ∧ rnd 24 3 = 3 := by decide

/-- C34, violated for floats: in np.arange(-(2**53 - 3), .., 2**54 - 2) (float64) numpy computes 2**53 as second value; the hooked fill replaces it by
2**53 - 1, whatever the length. -/
theorem C34_second_violated (rest out : List Int) (h : Arange.Result (floatOps 53) false (-(2 ^ 53 - 3) :: rnd 53 (-(2 ^ 53 - 3) + (2 ^ 54 - 2)) :: rest) out) :
    rnd 53 (-(2 ^ 53 - 3) + (2 ^ 54 - 2)) = 2 ^ 53 ∧ out[1]? = some (2 ^ 53 - 1) := by
  refine ⟨by decide +kernel, ?_⟩
  rw [C34_serial _ _ _ _ _ h, List.getElem?_map, List.getElem?_range (by omega), Option.map_some]
  decide +kernel

/-- C34, violated for floats: whether a chunk reads the first two elements before or after the first chunk has rewritten them depends on the
schedule; with float32, first value -(2**24 - 3) and second value -(2**25 - 2) and at least 65536 elements, two schedules give different arrays. -/
theorem C34_float_race_violated (rest : List Int) (hn : 65536 ≤ rest.length + 2) :
    ∃ out1 out2, Arange.Result (floatOps 24) true (-(2 ^ 24 - 3) :: -(2 ^ 25 - 2) :: rest) out1 ∧ Arange.Result (floatOps 24) true (-(2 ^ 24 - 3) :: -(2 ^ 25 - 2) :: rest) out2 ∧ out1 ≠ out2 := by
  obtain ⟨calls, hc⟩ := calls_exist hn
  obtain ⟨_, hperm⟩ := calls_threaded hc
  obtain ⟨b1, _⟩ := calls_bound hc
  have blk : ∀ b, b < 3 → ∃ k : Nat, calls[k]? = some (16384 * b, 16384) := by
    intro b hb
    have hm : (16384 * b, min 16384 (rest.length + 2 - 16384 * b)) ∈ calls := hperm.mem_iff.2 (List.mem_map.2 ⟨b, List.mem_range.2 (by omega), rfl⟩)
    rw [Nat.min_eq_left (by omega)] at hm
    exact List.mem_iff_getElem?.1 hm
  obtain ⟨k0, hk0⟩ := blk 0 (by omega)
  obtain ⟨k1, hk1⟩ := blk 1 (by omega)
  have hne : k1 ≠ k0 := by rintro rfl; rw [hk0] at hk1; cases hk1
  have hdisj : ∀ k st ln, calls[k]? = some (st, ln) → k ≠ k1 → ¬ (st ≤ 16384 ∧ 16384 < st + ln) := by
    intro k st ln hk hkk hcov
    have hm := hperm.mem_iff.1 (List.mem_of_getElem? hk)
    obtain ⟨b, hb, hbe⟩ := List.mem_map.1 hm
    obtain ⟨rfl, rfl⟩ := Prod.mk.inj hbe
    obtain rfl : b = 1 := by omega
    have hnd : calls.Nodup := by
      refine hperm.nodup_iff.2 ?_
      unfold blocks
      refine List.Nodup.map ?_ List.nodup_range
      intro a b hab
      have := (Prod.mk.inj hab).1
      omega
    have e1 : min 16384 (rest.length + 2 - 16384 * 1) = 16384 := by omega
    rw [e1] at hk
    have i1 := (List.getElem?_eq_some_iff.1 hk)
    have i2 := (List.getElem?_eq_some_iff.1 hk1)
    exact hkk ((List.Nodup.getElem_inj_iff hnd (hi := i1.1) (hj := i2.1)).1 (i1.2.trans i2.2.symm))
  -- first schedule: block 1 before block 0
  obtain ⟨s1, g1, g2, g3, g4⟩ := run_call (ops := floatOps 24) hk1 (s := begin (-(2 ^ 24 - 3) :: -(2 ^ 25 - 2) :: rest)) (by simp [begin]; omega) rfl rfl rfl
  have hstart : ∀ k, k ≠ k1 → s1.pc k = .start := by intro k hk; rw [g3, upd_ne _ hk]; rfl
  obtain ⟨t1, u1, u2, u3, u4⟩ := arange_finish (floatOps 24) calls (n := rest.length + 2) (by omega) b1 s1 g2 (fun k st ln hk => by
    by_cases hkk : k = k1
    · subst hkk
      rw [hk1] at hk
      obtain ⟨rfl, rfl⟩ := Prod.mk.inj (Option.some.inj hk)
      exact Or.inr ⟨_, _, by rw [g3, upd_self]⟩
    · exact Or.inl (hstart k hkk))
  have v1 : t1.mem[16384]? = some ((floatOps 24).elem (-(2 ^ 24 - 3)) 16384 ((floatOps 24).sub (-(2 ^ 25 - 2)) (-(2 ^ 24 - 3)))) := by
    rw [u4 16384 (fun k st ln hk hp => hdisj k st ln hk (by
      rintro rfl; rw [g3, upd_self] at hp; cases hp)), g4 16384, if_pos (by omega)]
  -- second schedule: block 0, then block 1
  obtain ⟨s2, p1, p2, p3, p4⟩ := run_call (ops := floatOps 24) hk0 (s := begin (-(2 ^ 24 - 3) :: -(2 ^ 25 - 2) :: rest)) (by simp [begin]; omega) rfl rfl rfl
  have m0 : s2.mem[0]? = some ((floatOps 24).elem (-(2 ^ 24 - 3)) 0 ((floatOps 24).sub (-(2 ^ 25 - 2)) (-(2 ^ 24 - 3)))) := by rw [p4 0, if_pos (by omega)]
  have m1 : s2.mem[1]? = some ((floatOps 24).elem (-(2 ^ 24 - 3)) 1 ((floatOps 24).sub (-(2 ^ 25 - 2)) (-(2 ^ 24 - 3)))) := by rw [p4 1, if_pos (by omega)]
  have hl2 : s2.mem.length = rest.length + 2 := p2
  obtain ⟨s3, q1, q2, q3, q4⟩ := run_call (ops := floatOps 24) hk1 (s := s2) (by omega) m0 m1 (by rw [p3, upd_ne _ hne]; rfl)
  obtain ⟨t2, w1, w2, w3, w4⟩ := arange_finish (floatOps 24) calls (n := rest.length + 2) (by omega) b1 s3 (by omega) (fun k st ln hk => by
    by_cases hkk : k = k1
    · subst hkk
      rw [hk1] at hk
      obtain ⟨rfl, rfl⟩ := Prod.mk.inj (Option.some.inj hk)
      exact Or.inr ⟨_, _, by rw [q3, upd_self]⟩
    · by_cases hk00 : k = k0
      · subst hk00
        rw [hk0] at hk
        obtain ⟨rfl, rfl⟩ := Prod.mk.inj (Option.some.inj hk)
        exact Or.inr ⟨_, _, by rw [q3, upd_ne _ hkk, p3, upd_self]⟩
      · exact Or.inl (by rw [q3, upd_ne _ hkk, p3, upd_ne _ hk00]; rfl))
  have v2 : t2.mem[16384]? = some ((floatOps 24).elem ((floatOps 24).elem (-(2 ^ 24 - 3)) 0 ((floatOps 24).sub (-(2 ^ 25 - 2)) (-(2 ^ 24 - 3)))) 16384
      ((floatOps 24).sub ((floatOps 24).elem (-(2 ^ 24 - 3)) 1 ((floatOps 24).sub (-(2 ^ 25 - 2)) (-(2 ^ 24 - 3))))
        ((floatOps 24).elem (-(2 ^ 24 - 3)) 0 ((floatOps 24).sub (-(2 ^ 25 - 2)) (-(2 ^ 24 - 3)))))) := by
    rw [w4 16384 (fun k st ln hk hp => hdisj k st ln hk (by
      rintro rfl; rw [q3, upd_self] at hp; cases hp)), q4 16384, if_pos (by omega)]
  refine ⟨t1.mem, t2.mem, ⟨calls, t1, hc, g1.trans u1, u2, rfl⟩, ⟨calls, t2, hc, (p1.trans q1).trans w1, w2, rfl⟩, fun he => ?_⟩
  rw [he, v2] at v1
  revert v1
  decide +kernel

end Pnumpy.Props
