import Verif.Model.Arange
import Verif.Proofs.Chunks
/- Lemmas on arange. -/
namespace Pnumpy.Arange
open Pnumpy.Chunks

variable {α : Type}

theorem upd_self {γ : Type} (f : Nat → γ) (k : Nat) (v : γ) : upd f k v k = v := by simp [upd]
theorem upd_ne {γ : Type} (f : Nat → γ) {k j : Nat} (h : j ≠ k) (v : γ) : upd f k v j = f j := by simp [upd, h]

/-- Invariant when element 0 and element 1 are rewritten with their own values. -/
structure Inv (ops : Ops α) (calls : List (Nat × Nat)) (F S : α) (n : Nat) (s : State α) : Prop where
  len : s.mem.length = n
  m0 : s.mem[0]? = some F
  m1 : s.mem[1]? = some S
  first : ∀ k f, s.pc k = .gotFirst f → f = F
  fill : ∀ k st ln f d i, calls[k]? = some (st, ln) → s.pc k = .fill f d i → f = F ∧ d = ops.sub S F ∧ st ≤ i ∧ i ≤ st + ln ∧
    ∀ j, st ≤ j → j < i → s.mem[j]? = some (ops.elem F j (ops.sub S F))

section
variable {ops : Ops α} {calls : List (Nat × Nat)} {F S : α} {n : Nat}

theorem inv_begin {mem : List α} (hn : mem.length = n) (h0 : mem[0]? = some F) (h1 : mem[1]? = some S) : Inv ops calls F S n (begin mem) :=
  ⟨hn, h0, h1, fun k f h => (by cases h), fun k st ln f d i _ h => (by cases h)⟩

theorem inv_step (hb : ∀ c ∈ calls, c.1 + c.2 ≤ n) (hF : ops.elem F 0 (ops.sub S F) = F) (hS : ops.elem F 1 (ops.sub S F) = S)
    {s : State α} (hi : Inv ops calls F S n s) {r : Option (State α)} (h : Step ops calls s r) : ∃ s', r = some s' ∧ Inv ops calls F S n s' := by
  cases h with
  | @read0 k st ln hk hp =>
    rw [hi.m0]
    refine ⟨_, rfl, hi.len, hi.m0, hi.m1, ?_, ?_⟩
    · intro k' f h
      by_cases hkk : k' = k
      · subst hkk; simp only [upd_self] at h; cases h; rfl
      · simp only [upd_ne _ hkk] at h; exact hi.first k' f h
    · intro k' st' ln' f d i hk' h
      by_cases hkk : k' = k
      · subst hkk; simp only [upd_self] at h; cases h
      · simp only [upd_ne _ hkk] at h; exact hi.fill k' st' ln' f d i hk' h
  | @read1 k st ln f0 hk hp =>
    have := hi.first k f0 hp
    subst this
    rw [hi.m1]
    refine ⟨_, rfl, hi.len, hi.m0, hi.m1, ?_, ?_⟩
    · intro k' f h
      by_cases hkk : k' = k
      · subst hkk; simp only [upd_self] at h; cases h
      · simp only [upd_ne _ hkk] at h; exact hi.first k' f h
    · intro k' st' ln' f d i hk' h
      by_cases hkk : k' = k
      · subst hkk
        rw [hk] at hk'
        obtain ⟨rfl, rfl⟩ := Prod.mk.inj (Option.some.inj hk')
        simp only [upd_self] at h
        cases h
        exact ⟨rfl, rfl, Nat.le_refl _, by omega, fun j _ _ => by omega⟩
      · simp only [upd_ne _ hkk] at h; exact hi.fill k' st' ln' f d i hk' h
  | @write k st ln i f d hk hp hlt =>
    obtain ⟨rfl, rfl, h1, h2, h3⟩ := hi.fill k st ln f d i hk hp
    have hle := hb _ (List.mem_of_getElem? hk)
    simp only at hle
    have hin : i < s.mem.length := by have := hi.len; omega
    rw [Pnumpy.Sort.put, if_pos hin]
    have hpos : ∀ j v, s.mem[j]? = some v → v = ops.elem f j (ops.sub S f) → (s.mem.set i (ops.elem f i (ops.sub S f)))[j]? = some v := by
      intro j v h hv
      by_cases hij : i = j
      · subst hij; rw [List.getElem?_set_self hin, hv]
      · rw [List.getElem?_set_ne hij, h]
    refine ⟨_, rfl, by simpa using hi.len, hpos 0 _ hi.m0 hF.symm, hpos 1 _ hi.m1 hS.symm, ?_, ?_⟩
    · intro k' f' h
      by_cases hkk : k' = k
      · subst hkk; simp only [upd_self] at h; cases h
      · simp only [upd_ne _ hkk] at h; exact hi.first k' f' h
    · intro k' st' ln' f' d' i' hk' h
      by_cases hkk : k' = k
      · subst hkk
        rw [hk] at hk'
        obtain ⟨rfl, rfl⟩ := Prod.mk.inj (Option.some.inj hk')
        simp only [upd_self] at h
        cases h
        refine ⟨rfl, rfl, by omega, by omega, fun j ha hc => ?_⟩
        by_cases hj : j = i
        · subst hj; exact List.getElem?_set_self hin
        · exact hpos j _ (h3 j ha (by omega)) rfl
      · simp only [upd_ne _ hkk] at h
        obtain ⟨g1, g2, g3, g4, g5⟩ := hi.fill k' st' ln' f' d' i' hk' h
        exact ⟨g1, g2, g3, g4, fun j ha hc => hpos j _ (g5 j ha hc) rfl⟩

theorem inv_reach (hb : ∀ c ∈ calls, c.1 + c.2 ≤ n) (hF : ops.elem F 0 (ops.sub S F) = F) (hS : ops.elem F 1 (ops.sub S F) = S)
    {s0 s : State α} (hi : Inv ops calls F S n s0) (h : Reach ops calls s0 s) : Inv ops calls F S n s := by
  induction h with
  | refl => exact hi
  | step _ h ih =>
    obtain ⟨s', e, h'⟩ := inv_step hb hF hS ih h
    cases e; exact h'

theorem Reach.trans {s0 s1 s2 : State α} (h1 : Reach ops calls s0 s1) (h2 : Reach ops calls s1 s2) : Reach ops calls s0 s2 := by
  induction h2 with
  | refl => exact h1
  | step _ h ih => exact .step ih h

/-- A call in its loop can run to its end. -/
theorem run_fill {k st ln : Nat} {f d : α} (hk : calls[k]? = some (st, ln)) : ∀ (m i : Nat) (s : State α), i + m = st + ln → st + ln ≤ s.mem.length →
    s.pc k = .fill f d i → ∃ s', Reach ops calls s s' ∧ s'.mem.length = s.mem.length ∧ s'.pc = upd s.pc k (.fill f d (st + ln)) ∧
      ∀ j, s'.mem[j]? = if i ≤ j ∧ j < st + ln then some (ops.elem f j d) else s.mem[j]? := by
  intro m
  induction m with
  | zero =>
    intro i s h1 h2 h3
    refine ⟨s, .refl, rfl, ?_, fun j => by rw [if_neg (by omega)]⟩
    funext j
    by_cases h : j = k
    · subst h; rw [upd_self, h3]; congr 1
    · rw [upd_ne _ h]
  | succ m ih =>
    intro i s h1 h2 h3
    have hin : i < s.mem.length := by omega
    have hst := Step.write (ops := ops) hk h3 (by omega)
    rw [Pnumpy.Sort.put, if_pos hin] at hst
    obtain ⟨s', g1, g2, g3, g4⟩ := ih (i + 1) { mem := s.mem.set i (ops.elem f i d), pc := upd s.pc k (.fill f d (i + 1)) } (by omega) (by simpa using h2) (upd_self _ _ _)
    refine ⟨s', (Reach.step .refl hst).trans g1, by simpa using g2, ?_, fun j => ?_⟩
    · rw [g3]
      funext j
      by_cases h : j = k
      · subst h; simp only [upd_self]
      · simp only [upd_ne _ h]
    · rw [g4 j]
      by_cases hj : i + 1 ≤ j ∧ j < st + ln
      · rw [if_pos hj, if_pos (by omega)]
      · rw [if_neg hj]
        by_cases hij : i = j
        · subst hij; rw [if_pos (by omega)]; exact List.getElem?_set_self hin
        · rw [if_neg (by omega)]; exact List.getElem?_set_ne hij

/-- A call can run from its beginning to its end. -/
theorem run_call {k st ln : Nat} {F S : α} (hk : calls[k]? = some (st, ln)) {s : State α} (h2 : st + ln ≤ s.mem.length) (h0 : s.mem[0]? = some F) (h1 : s.mem[1]? = some S)
    (h3 : s.pc k = .start) : ∃ s', Reach ops calls s s' ∧ s'.mem.length = s.mem.length ∧ s'.pc = upd s.pc k (.fill F (ops.sub S F) (st + ln)) ∧
      ∀ j, s'.mem[j]? = if st ≤ j ∧ j < st + ln then some (ops.elem F j (ops.sub S F)) else s.mem[j]? := by
  have s1 := Step.read0 (ops := ops) hk h3
  rw [h0] at s1
  have s2 := Step.read1 (ops := ops) (s := { s with pc := upd s.pc k (.gotFirst F) }) hk (upd_self _ _ _)
  simp only [h1] at s2
  obtain ⟨s', g1, g2, g3, g4⟩ := run_fill (ops := ops) hk ln st { s with pc := upd (upd s.pc k (.gotFirst F)) k (.fill F (ops.sub S F) st) } rfl h2 (upd_self _ _ _)
  refine ⟨s', ((Reach.step .refl s1).step s2).trans g1, g2, ?_, g4⟩
  rw [g3]
  funext j
  by_cases h : j = k
  · subst h; simp only [upd_self]
  · simp only [upd_ne _ h]

end

theorem int_elem {w : Nat} (hw : w ≤ 64) (signed : Bool) (f d : BitVec w) (i : Nat) : (intOps w signed).elem f i d = f + BitVec.ofNat w i * d := by
  have hs : ∀ x : BitVec w, (x.signExtend 64).setWidth w = x := by
    intro x
    apply BitVec.eq_of_getLsbD_eq
    intro j hj
    rw [BitVec.getLsbD_setWidth, BitVec.getLsbD_signExtend]
    simp [hj]; omega
  have hz : ∀ x : BitVec w, (x.setWidth 64).setWidth w = x := by
    intro x
    apply BitVec.eq_of_getLsbD_eq
    intro j hj
    rw [BitVec.getLsbD_setWidth, BitVec.getLsbD_setWidth]
    simp [hj]; omega
  have hi : (BitVec.ofNat 64 i).setWidth w = BitVec.ofNat w i := by
    apply BitVec.eq_of_getLsbD_eq
    intro j hj
    rw [BitVec.getLsbD_setWidth, BitVec.getLsbD_ofNat, BitVec.getLsbD_ofNat]
    simp [hj]; omega
  unfold intOps
  simp only
  cases signed with
  | false => simp only [Bool.false_eq_true, if_false]; rw [BitVec.setWidth_add _ _ hw, BitVec.setWidth_mul _ _ hw, hz, hz, hi]
  | true => simp only [if_true]; rw [BitVec.setWidth_add _ _ hw, BitVec.setWidth_mul _ _ hw, hs, hs, hi]

end Pnumpy.Arange
