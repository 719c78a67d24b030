import Verif.Proofs.Arange
/- Lemmas on arange: what the threads can leave. -/
namespace Pnumpy.Arange
open Pnumpy.Chunks

variable {α : Type}

/-- The chunks are distinct blocks of 16384 elements within the buffer. -/
structure Blocks (n : Nat) (calls : List (Nat × Nat)) : Prop where
  bound : ∀ k st ln : Nat, calls[k]? = some (st, ln) → st + ln ≤ n ∧ ln ≤ 16384 ∧ ∃ b, st = 16384 * b
  inj : ∀ k k' st ln ln' : Nat, calls[k]? = some (st, ln) → calls[k']? = some (st, ln') → k = k'
  cover : ∀ j, j < n → ∃ k ln : Nat, calls[k]? = some (16384 * (j / 16384), ln) ∧ j < 16384 * (j / 16384) + ln

theorem blocks_of {n : Nat} {calls : List (Nat × Nat)} (h : Calls n true calls) : Blocks n calls := by
  obtain ⟨_, hperm⟩ := calls_threaded h
  have hmem : ∀ c, c ∈ calls ↔ ∃ b, b < (n + 16383) / 16384 ∧ (16384 * b, min 16384 (n - 16384 * b)) = c := by
    intro c
    rw [hperm.mem_iff]
    unfold blocks
    rw [List.mem_map]
    simp only [List.mem_range]
  have hnd : calls.Nodup := by
    refine hperm.nodup_iff.2 ?_
    unfold blocks
    refine List.Nodup.map ?_ List.nodup_range
    intro a b hab
    have := (Prod.mk.inj hab).1
    omega
  refine ⟨fun k st ln hk => ?_, fun k k' st ln ln' hk hk' => ?_, fun j hj => ?_⟩
  · obtain ⟨b, hb, he⟩ := (hmem _).1 (List.mem_of_getElem? hk)
    obtain ⟨rfl, rfl⟩ := Prod.mk.inj he
    exact ⟨by omega, by omega, b, rfl⟩
  · obtain ⟨b, hb, he⟩ := (hmem _).1 (List.mem_of_getElem? hk)
    obtain ⟨b', hb', he'⟩ := (hmem _).1 (List.mem_of_getElem? hk')
    obtain ⟨h1, h2⟩ := Prod.mk.inj he
    obtain ⟨h3, h4⟩ := Prod.mk.inj he'
    obtain rfl : b = b' := by omega
    have : ln = ln' := h2.symm.trans h4
    subst this
    have i1 := List.getElem?_eq_some_iff.1 hk
    have i2 := List.getElem?_eq_some_iff.1 hk'
    exact (List.Nodup.getElem_inj_iff hnd (hi := i1.1) (hj := i2.1)).1 (i1.2.trans i2.2.symm)
  · have hm := (hmem (16384 * (j / 16384), min 16384 (n - 16384 * (j / 16384)))).2 ⟨j / 16384, by omega, rfl⟩
    obtain ⟨k, hk⟩ := List.mem_iff_getElem?.1 hm
    exact ⟨k, _, hk, by omega⟩

theorem Blocks.apart {n : Nat} {calls : List (Nat × Nat)} (h : Blocks n calls) {k k' st ln st' ln' j : Nat} (hk : calls[k]? = some (st, ln))
    (hk' : calls[k']? = some (st', ln')) (h1 : st ≤ j) (h2 : j < st + ln) (h3 : st' ≤ j) (h4 : j < st' + ln') : k = k' := by
  obtain ⟨_, a1, b, rfl⟩ := h.bound _ _ _ hk
  obtain ⟨_, a2, b', rfl⟩ := h.bound _ _ _ hk'
  obtain rfl : b = b' := by omega
  exact h.inj _ _ _ _ _ hk hk'

/-- Invariant: element 1 is as numpy left it or as the first chunk wrote it. -/
structure Race (ops : Ops α) (calls : List (Nat × Nat)) (F S : α) (n : Nat) (s : State α) : Prop where
  len : s.mem.length = n
  m0 : s.mem[0]? = some F
  m1 : s.mem[1]? = some S ∨ (s.mem[1]? = some (ops.elem F 1 (ops.sub S F)) ∧ ∀ k ln : Nat, calls[k]? = some (0, ln) → ∃ f d i, s.pc k = .fill f d i)
  first : ∀ k f, s.pc k = .gotFirst f → f = F
  fill : ∀ k st ln f d i, calls[k]? = some (st, ln) → s.pc k = .fill f d i →
    f = F ∧ (d = ops.sub S F ∨ (0 < st ∧ d = ops.sub (ops.elem F 1 (ops.sub S F)) F)) ∧ st ≤ i ∧ i ≤ st + ln ∧
    ∀ j, st ≤ j → j < i → s.mem[j]? = some (ops.elem F j d)

section
variable {ops : Ops α} {calls : List (Nat × Nat)} {F S : α} {n : Nat}

theorem race_begin {mem : List α} (hn : mem.length = n) (h0 : mem[0]? = some F) (h1 : mem[1]? = some S) : Race ops calls F S n (begin mem) :=
  ⟨hn, h0, Or.inl h1, fun k f h => (by cases h), fun k st ln f d i _ h => (by cases h)⟩

theorem race_step (hb : Blocks n calls) (hF : ∀ d, ops.elem F 0 d = F)
    {s : State α} (hi : Race ops calls F S n s) {r : Option (State α)} (h : Step ops calls s r) : ∃ s', r = some s' ∧ Race ops calls F S n s' := by
  cases h with
  | @read0 k st ln hk hp =>
    rw [hi.m0]
    refine ⟨_, rfl, hi.len, hi.m0, ?_, ?_, ?_⟩
    · refine hi.m1.imp id fun ⟨h1, h2⟩ => ⟨h1, fun k' ln' hk' => ?_⟩
      obtain ⟨f, d, i, e⟩ := h2 k' ln' hk'
      have hkk : k' ≠ k := by rintro rfl; rw [hp] at e; cases e
      exact ⟨f, d, i, by simp only [upd_ne _ hkk]; exact e⟩
    · intro k' f h
      by_cases hkk : k' = k
      · subst hkk; simp only [upd_self] at h; cases h; rfl
      · simp only [upd_ne _ hkk] at h; exact hi.first k' f h
    · intro k' st' ln' f d i hk' h
      by_cases hkk : k' = k
      · subst hkk; simp only [upd_self] at h; cases h
      · simp only [upd_ne _ hkk] at h; exact hi.fill k' st' ln' f d i hk' h
  | @read1 k st ln f0 hk hp =>
    have := hi.first k f0 hp
    subst this
    have key : ∃ x, s.mem[1]? = some x ∧ (x = S ∨ (0 < st ∧ x = ops.elem f0 1 (ops.sub S f0))) := by
      rcases hi.m1 with h | ⟨h, h2⟩
      · exact ⟨S, h, Or.inl rfl⟩
      · refine ⟨_, h, Or.inr ⟨?_, rfl⟩⟩
        rcases Nat.eq_zero_or_pos st with rfl | h0
        · obtain ⟨f, d, i, e⟩ := h2 k ln hk
          rw [hp] at e; cases e
        · exact h0
    obtain ⟨x, hx, hx'⟩ := key
    rw [hx]
    refine ⟨_, rfl, hi.len, hi.m0, ?_, ?_, ?_⟩
    · refine hi.m1.imp id fun ⟨h1, h2⟩ => ⟨h1, fun k' ln' hk' => ?_⟩
      obtain ⟨f, d, i, e⟩ := h2 k' ln' hk'
      have hkk : k' ≠ k := by rintro rfl; rw [hp] at e; cases e
      exact ⟨f, d, i, by simp only [upd_ne _ hkk]; exact e⟩
    · intro k' f h
      by_cases hkk : k' = k
      · subst hkk; simp only [upd_self] at h; cases h
      · simp only [upd_ne _ hkk] at h; exact hi.first k' f h
    · intro k' st' ln' f d i hk' h
      by_cases hkk : k' = k
      · subst hkk
        rw [hk] at hk'
        obtain ⟨rfl, rfl⟩ := Prod.mk.inj (Option.some.inj hk')
        simp only [upd_self] at h
        cases h
        refine ⟨rfl, ?_, Nat.le_refl _, by omega, fun j _ _ => by omega⟩
        rcases hx' with rfl | ⟨h0, rfl⟩
        · exact Or.inl rfl
        · exact Or.inr ⟨h0, rfl⟩
      · simp only [upd_ne _ hkk] at h; exact hi.fill k' st' ln' f d i hk' h
  | @write k st ln i f d hk hp hlt =>
    obtain ⟨rfl, hd, h1, h2, h3⟩ := hi.fill k st ln f d i hk hp
    obtain ⟨hle, hl1, b, hstb⟩ := hb.bound _ _ _ hk
    have hin : i < s.mem.length := by have := hi.len; omega
    rw [Pnumpy.Sort.put, if_pos hin]
    refine ⟨_, rfl, by simpa using hi.len, ?_, ?_, ?_, ?_⟩
    · rcases Nat.eq_zero_or_pos i with rfl | h0
      · simp only; rw [List.getElem?_set_self hin, hF]
      · simp only; rw [List.getElem?_set_ne (by omega)]; exact hi.m0
    · by_cases h1i : i = 1
      · subst h1i
        have hst0 : st = 0 := by omega
        refine Or.inr ⟨?_, fun k' ln' hk' => ?_⟩
        · simp only
          rw [List.getElem?_set_self hin]
          rcases hd with rfl | ⟨h0, _⟩
          · rfl
          · omega
        · subst hst0
          obtain rfl := hb.inj _ _ _ _ _ hk hk'
          exact ⟨_, _, _, upd_self _ _ _⟩
      · simp only
        rw [List.getElem?_set_ne h1i]
        refine hi.m1.imp id fun ⟨g1, g2⟩ => ⟨g1, fun k' ln' hk' => ?_⟩
        by_cases hkk : k' = k
        · subst hkk; exact ⟨_, _, _, upd_self _ _ _⟩
        · obtain ⟨f', d', i', e⟩ := g2 k' ln' hk'
          exact ⟨f', d', i', by rw [upd_ne _ hkk]; exact e⟩
    · intro k' f' h
      by_cases hkk : k' = k
      · subst hkk; simp only [upd_self] at h; cases h
      · simp only [upd_ne _ hkk] at h; exact hi.first k' f' h
    · intro k' st' ln' f' d' i' hk' h
      by_cases hkk : k' = k
      · subst hkk
        rw [hk] at hk'
        obtain ⟨rfl, rfl⟩ := Prod.mk.inj (Option.some.inj hk')
        simp only [upd_self] at h
        cases h
        refine ⟨rfl, hd, by omega, by omega, fun j ha hc => ?_⟩
        by_cases hj : j = i
        · subst hj; exact List.getElem?_set_self hin
        · simp only; rw [List.getElem?_set_ne (by omega)]; exact h3 j ha (by omega)
      · simp only [upd_ne _ hkk] at h
        obtain ⟨g1, g2, g3, g4, g5⟩ := hi.fill k' st' ln' f' d' i' hk' h
        refine ⟨g1, g2, g3, g4, fun j ha hc => ?_⟩
        have hij : i ≠ j := by
          rintro rfl
          exact hkk (hb.apart hk' hk ha (by omega) h1 hlt)
        simp only
        rw [List.getElem?_set_ne hij]; exact g5 j ha hc

theorem race_reach (hb : Blocks n calls) (hF : ∀ d, ops.elem F 0 d = F)
    {s0 s : State α} (hi : Race ops calls F S n s0) (h : Reach ops calls s0 s) : Race ops calls F S n s := by
  induction h with
  | refl => exact hi
  | step _ h ih =>
    obtain ⟨s', e, h'⟩ := race_step hb hF ih h
    cases e; exact h'

/-- Some of the later chunks run one after the other. -/
theorem run_some (hb : Blocks n calls) {X : α} : ∀ (ks : List Nat) (s : State α), ks.Nodup → s.mem.length = n → s.mem[0]? = some F → s.mem[1]? = some X →
    (∀ k ∈ ks, s.pc k = .start ∧ ∃ st ln : Nat, calls[k]? = some (st, ln) ∧ 0 < st) →
    ∃ s', Reach ops calls s s' ∧ s'.mem.length = n ∧ (∀ k, k ∉ ks → s'.pc k = s.pc k) ∧
      (∀ k st ln, k ∈ ks → calls[k]? = some (st, ln) → s'.pc k = .fill F (ops.sub X F) (st + ln) ∧
        ∀ j, st ≤ j → j < st + ln → s'.mem[j]? = some (ops.elem F j (ops.sub X F))) ∧
      ∀ j, (∀ k st ln, k ∈ ks → calls[k]? = some (st, ln) → ¬ (st ≤ j ∧ j < st + ln)) → s'.mem[j]? = s.mem[j]? := by
  intro ks
  induction ks with
  | nil => intro s _ hl _ _ _; exact ⟨s, .refl, hl, fun _ _ => rfl, fun _ _ _ h => by simp at h, fun _ _ => rfl⟩
  | cons k ks ih =>
    intro s hnd hl h0 h1 hk
    obtain ⟨hp, st, ln, hc, hst⟩ := hk k (by simp)
    obtain ⟨hle, hln, b, hstb⟩ := hb.bound _ _ _ hc
    obtain ⟨s1, g1, g2, g3, g4⟩ := run_call (ops := ops) hc (s := s) (by omega) h0 h1 hp
    rw [List.nodup_cons] at hnd
    have hne : ∀ k' ∈ ks, k' ≠ k := fun k' hk' e => hnd.1 (e ▸ hk')
    obtain ⟨s2, u1, u2, u3, u4, u5⟩ := ih s1 hnd.2 (by omega) (by rw [g4, if_neg (by omega)]; exact h0) (by rw [g4, if_neg (by omega)]; exact h1)
      (fun k' hk' => by
        obtain ⟨a1, a2⟩ := hk k' (by simp [hk'])
        exact ⟨by rw [g3, upd_ne _ (hne k' hk')]; exact a1, a2⟩)
    refine ⟨s2, g1.trans u1, u2, fun k' hk' => ?_, fun k' st' ln' hk' hc' => ?_, fun j hj => ?_⟩
    · simp only [List.mem_cons, not_or] at hk'
      rw [u3 k' hk'.2, g3, upd_ne _ hk'.1]
    · rcases List.mem_cons.1 hk' with rfl | hk'
      · rw [hc] at hc'
        obtain ⟨rfl, rfl⟩ := Prod.mk.inj (Option.some.inj hc')
        refine ⟨by rw [u3 _ hnd.1, g3, upd_self], fun j h1 h2 => ?_⟩
        rw [u5 j (fun k2 st2 ln2 hk2 hc2 ⟨h3, h4⟩ => hne k2 hk2 (hb.apart hc2 hc h3 h4 h1 h2)), g4, if_pos ⟨h1, h2⟩]
      · exact u4 k' st' ln' hk' hc'
    · rw [u5 j (fun k2 st2 ln2 hk2 hc2 => hj k2 st2 ln2 (by simp [hk2]) hc2), g4, if_neg (hj k st ln (by simp) hc)]

end

end Pnumpy.Arange
