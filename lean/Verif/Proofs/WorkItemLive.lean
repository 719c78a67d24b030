import Verif.Spec.TermsWork
import Verif.Proofs.WorkItem
namespace Pnumpy.Work

def sumTo (f : Nat → Nat) : Nat → Nat
  | 0 => 0
  | n + 1 => sumTo f n + f n

theorem sumTo_le {f g : Nat → Nat} : ∀ {n : Nat}, (∀ i, i < n → f i ≤ g i) → sumTo f n ≤ sumTo g n
  | 0, _ => Nat.le_refl _
  | n + 1, h => Nat.add_le_add (sumTo_le fun i hi => h i (by omega)) (h n (by omega))

theorem sumTo_lt {f g : Nat → Nat} {c : Nat} : ∀ {n : Nat}, (∀ i, i < n → f i ≤ g i) → c < n →
    f c < g c → sumTo f n < sumTo g n
  | 0, _, h, _ => by omega
  | n + 1, h, hc, hlt => by
    simp only [sumTo]
    by_cases e : c = n
    · subst e
      have := sumTo_le (n := c) fun i hi => h i (by omega)
      omega
    · have := sumTo_lt (n := n) (fun i hi => h i (by omega)) (by omega) hlt
      have := h n (by omega)
      omega

def rank : PC → Nat
  | .bump _ _ => 3
  | .run _ => 2
  | .complete _ => 1
  | _ => 0

theorem rank_pos_iff (p : PC) : 0 < rank p ↔ p.busy = true := by cases p <;> simp [rank, PC.busy]

def U (it : Item) (s : St) : Nat := sumTo (fun ch => it.chanLast ch - s.cur ch) it.threads

def mrank (it : Item) : PC → Nat
  | .idle => it.threads + 9
  | .bump _ _ => it.threads + 8
  | .run _ => it.threads + 7
  | .complete _ => it.threads + 6
  | .own => it.threads + 5
  | .check => it.threads + 4
  | .scan i => it.threads + 3 - i
  | .ret => 2
  | .wait => 1
  | .returned => 0

def M (it : Item) (s : St) : Nat := U it s * (it.threads + 10) + mrank it (s.pc 0)

theorem U_claim_le (it : Item) (s : St) (c i : Nat) (f : PC) : U it (tryClaim it s c i f) ≤ U it s := by
  refine sumTo_le fun j _ => ?_
  simp only [tryClaim, upd]; split
  · subst_vars; omega
  · omega

theorem U_claim_lt (it : Item) (s : St) (c i : Nat) (f : PC) (hi : i < it.threads)
    (h : s.cur i < it.chanLast i) : U it (tryClaim it s c i f) < U it s := by
  refine sumTo_lt (c := i) (fun j _ => ?_) hi ?_
  · simp only [tryClaim, upd]; split
    · subst_vars; omega
    · omega
  · simp [tryClaim]; omega

theorem U_step_le (it : Item) (s : St) (c : Nat) : U it (step it s c) ≤ U it s := by
  unfold step
  split
  · exact Nat.le_refl _
  split <;> first
    | exact Nat.le_refl _
    | exact U_claim_le ..
    | skip
  · split
    · exact Nat.le_refl _
    · split
      · exact Nat.le_refl _
      · exact U_claim_le ..
  · split <;> exact Nat.le_refl _

theorem step_other (it : Item) (s : St) {c d : Nat} (h : d ≠ c) : (step it s c).pc d = s.pc d := by
  unfold step
  split
  · rfl
  split <;> (try simp [tryClaim, h])
  · split
    · simp [h]
    · split <;> simp [h]
  · split <;> simp [h]

theorem M_other (it : Item) (s : St) {c : Nat} (h : c ≠ 0) : M it (step it s c) ≤ M it s := by
  unfold M
  rw [step_other it s (c := c) (d := 0) (Ne.symm h)]
  exact Nat.add_le_add_right (Nat.mul_le_mul_right _ (U_step_le it s c)) _

theorem M_main {it : Item} {s : St} (h : Inv it s) (hw : s.pc 0 ≠ .wait) (hr : s.pc 0 ≠ .returned) :
    M it (step it s 0) < M it s := by
  have hi := h.mainNotIdle
  have hU := U_step_le it s 0
  have hclaim : ∀ i f, i < it.threads → mrank it f < mrank it (s.pc 0) →
      step it s 0 = tryClaim it s 0 i f → M it (step it s 0) < M it s := by
    intro i f hi hf e
    unfold M
    rw [e] at hU ⊢
    by_cases hlt : s.cur i < it.chanLast i
    · have := U_claim_lt it s 0 i f hi hlt
      have e2 : (tryClaim it s 0 i f).pc 0 = .bump i (s.cur i) := by simp [tryClaim, hlt]
      rw [e2]
      have : (U it (tryClaim it s 0 i f) + 1) * (it.threads + 10) ≤ U it s * (it.threads + 10) :=
        Nat.mul_le_mul_right _ this
      rw [Nat.succ_mul] at this
      simp only [mrank]; omega
    · have e2 : (tryClaim it s 0 i f).pc 0 = f := by simp [tryClaim, hlt]
      rw [e2]
      have : U it (tryClaim it s 0 i f) * (it.threads + 10) ≤ U it s * (it.threads + 10) :=
        Nat.mul_le_mul_right _ hU
      omega
  have hsimple : mrank it ((step it s 0).pc 0) < mrank it (s.pc 0) → M it (step it s 0) < M it s := by
    intro hm
    unfold M
    have : U it (step it s 0) * (it.threads + 10) ≤ U it s * (it.threads + 10) :=
      Nat.mul_le_mul_right _ hU
    omega
  have hz : ¬ it.wakeup < 0 := by omega
  match hp : s.pc 0 with
  | .idle => exact absurd hp hi
  | .wait => exact absurd hp hw
  | .returned => exact absurd hp hr
  | .own => exact hclaim 0 .check (threads_pos it) (by rw [hp]; simp [mrank]) (by simp [step, hp])
  | .bump ch pos => exact hsimple (by simp [step, hp, mrank])
  | .run b => exact hsimple (by simp [step, hp, mrank])
  | .complete b => exact hsimple (by simp [step, hp, mrank])
  | .ret => exact hsimple (by simp [step, hp, mrank])
  | .check =>
    refine hsimple ?_
    simp only [step, hp, hz, if_false, upd_self]
    split <;> simp [mrank]
  | .scan i =>
    have hir := h.scanRange 0 i hp
    by_cases h1 : it.wakeup < i
    · refine hsimple ?_
      simp [step, hp, h1, mrank]; omega
    · by_cases h2 : i = 0
      · refine hsimple ?_
        subst h2
        simp [step, hp, mrank]
      · exact hclaim i (.scan (i + 1)) (by unfold Item.threads; omega)
          (by rw [hp]; simp [mrank, Item.threads]; omega) (by simp [step, hp, h1, h2])

/-- Fairness actually needed: the caller keeps being scheduled, and a thread that is in the middle
of a block eventually gets to run.  Workers that hold no block may be starved forever. -/
def Fair (it : Item) (σ : Nat → Nat) : Prop :=
  (∀ t, ∃ t', t ≤ t' ∧ σ t' = 0) ∧
  (∀ t c, ((trace it σ t).pc c).busy = true → ∃ t', t ≤ t' ∧ σ t' = c)

/-- First time at or after `t` at which thread `c` is scheduled. -/
theorem next_time {σ : Nat → Nat} {c t : Nat} (h : ∃ t', t ≤ t' ∧ σ t' = c) :
    ∃ t', t ≤ t' ∧ σ t' = c ∧ ∀ u, t ≤ u → u < t' → σ u ≠ c := by
  obtain ⟨t', h1, h2⟩ := h
  have : ∀ n, ∀ t, (∃ t', t ≤ t' ∧ t' < t + n ∧ σ t' = c) →
      ∃ t', t ≤ t' ∧ σ t' = c ∧ ∀ u, t ≤ u → u < t' → σ u ≠ c := by
    intro n
    induction n with
    | zero => rintro t ⟨t', a, b, _⟩; omega
    | succ n ih =>
      rintro t ⟨t', a, b, e⟩
      by_cases h : σ t = c
      · exact ⟨t, Nat.le_refl _, h, fun u _ _ => by omega⟩
      · have : t ≠ t' := by rintro rfl; exact h e
        obtain ⟨w, h1, h2, h3⟩ := ih (t + 1) ⟨t', by omega, by omega, e⟩
        refine ⟨w, by omega, h2, fun u hu1 hu2 => ?_⟩
        by_cases e : u = t
        · subst e; exact h
        · exact h3 u (by omega) hu2
  exact this (t' - t + 1) t ⟨t', h1, by omega, h2⟩

theorem reach_wait {it : Item} (wf : WF it) {σ : Nat → Nat} (hf : ∀ t, ∃ t', t ≤ t' ∧ σ t' = 0) :
    ∃ t, (trace it σ t).pc 0 = .wait ∨ (trace it σ t).pc 0 = .returned := by
  have key : ∀ n t, M it (trace it σ t) ≤ n →
      ∃ t, (trace it σ t).pc 0 = .wait ∨ (trace it σ t).pc 0 = .returned := by
    intro n
    induction n with
    | zero =>
      intro t hM
      refine ⟨t, ?_⟩
      refine Decidable.byContradiction fun hcon => ?_
      rw [not_or] at hcon
      have := M_main (inv_trace wf σ t) hcon.1 hcon.2
      omega
    | succ n ih =>
      intro t hM
      obtain ⟨t', h1, h2, h3⟩ := next_time (hf t)
      have hle : ∀ k, t + k ≤ t' → M it (trace it σ (t + k)) ≤ n + 1 := by
        intro k
        induction k with
        | zero => intro _; exact hM
        | succ k ihk =>
          intro hk
          have := ihk (by omega)
          exact Nat.le_trans (M_other it _ (h3 (t + k) (by omega) (by omega))) this
      have hM' : M it (trace it σ t') ≤ n + 1 := by
        have := hle (t' - t) (by omega)
        rwa [show t + (t' - t) = t' by omega] at this
      by_cases hcon : (trace it σ t').pc 0 = .wait ∨ (trace it σ t').pc 0 = .returned
      · exact ⟨t', hcon⟩
      · rw [not_or] at hcon
        have := M_main (inv_trace wf σ t') hcon.1 hcon.2
        refine ih (t' + 1) ?_
        have e : trace it σ (t' + 1) = step it (trace it σ t') 0 := by simp [trace, h2]
        rw [e]; omega
  exact key _ 0 (Nat.le_refl _)

theorem allClaimed_step {it : Item} {s : St} (h : AllClaimed it s) (c : Nat) :
    AllClaimed it (step it s c) := by
  have mono : ∀ j, s.cur j ≤ (step it s c).cur j := by
    intro j
    have hu : ∀ i, s.cur j ≤ upd s.cur i (s.cur i + 1) j := by
      intro i; unfold upd; split
      · subst_vars; omega
      · exact Nat.le_refl _
    unfold step
    split
    · exact Nat.le_refl _
    split <;> first
      | exact Nat.le_refl _
      | exact hu _
      | skip
    · split
      · exact Nat.le_refl _
      · split
        · exact Nat.le_refl _
        · exact hu _
    · split <;> exact Nat.le_refl _
  exact fun ch hch => Nat.le_trans (h ch hch) (mono ch)

def H (it : Item) (s : St) : Nat := sumTo (fun c => rank (s.pc c)) it.threads

theorem rank_step_self {it : Item} {s : St} (h : AllClaimed it s) {c : Nat} (hc : c ≤ it.wakeup) :
    rank ((step it s c).pc c) ≤ rank (s.pc c) ∧
    ((s.pc c).busy = true → rank ((step it s c).pc c) < rank (s.pc c)) := by
  have hn : ¬ it.wakeup < c := by omega
  have hcl : ∀ i f, i < it.threads → ((tryClaim it s c i f).pc c) = f := by
    intro i f hi
    have := h i hi
    have : ¬ s.cur i < it.chanLast i := by omega
    simp [tryClaim, this]
  have hct : c < it.threads := by unfold Item.threads; omega
  match hp : s.pc c with
  | .idle => simp [step, hn, hp, rank, PC.busy]
  | .bump _ _ => simp [step, hn, hp, rank, PC.busy]
  | .run _ => simp [step, hn, hp, rank, PC.busy]
  | .complete _ => simp [step, hn, hp, rank, PC.busy]
  | .returned => simp [step, hn, hp, rank, PC.busy]
  | .own =>
    have e : step it s c = tryClaim it s c c .check := by simp [step, hn, hp]
    rw [e, hcl c _ hct]; simp [rank, PC.busy]
  | .check =>
    refine ⟨?_, by simp [PC.busy]⟩
    simp only [step, hn, hp, if_false, upd_self]
    split <;> simp [rank]
  | .ret =>
    refine ⟨?_, by simp [PC.busy]⟩
    simp only [step, hn, hp, if_false, upd_self]
    split <;> simp [rank]
  | .wait =>
    refine ⟨?_, by simp [PC.busy]⟩
    simp only [step, hn, hp, if_false]
    split <;> simp [rank, hp]
  | .scan i =>
    refine ⟨?_, by simp [PC.busy]⟩
    by_cases h1 : it.wakeup < i
    · simp [step, hn, hp, h1, rank]
    · by_cases h2 : i = c
      · simp [step, hn, hp, h2, rank]
      · have e : step it s c = tryClaim it s c i (.scan (i + 1)) := by simp [step, hn, hp, h1, h2]
        rw [e, hcl i _ (by unfold Item.threads; omega)]; simp [rank]

theorem H_step_le {it : Item} {s : St} (h : AllClaimed it s) (c : Nat) :
    H it (step it s c) ≤ H it s := by
  refine sumTo_le fun d hd => ?_
  by_cases e : d = c
  · subst e
    exact (rank_step_self h (by unfold Item.threads at hd; omega)).1
  · exact Nat.le_of_eq (by rw [step_other it s e])

theorem H_step_lt {it : Item} {s : St} (h : AllClaimed it s) {c : Nat} (hc : c ≤ it.wakeup)
    (hb : (s.pc c).busy = true) : H it (step it s c) < H it s := by
  refine sumTo_lt (c := c) (fun d hd => ?_) (by unfold Item.threads; omega) ((rank_step_self h hc).2 hb)
  · by_cases e : d = c
    · subst e
      exact (rank_step_self h hc).1
    · exact Nat.le_of_eq (by rw [step_other it s e])

/-- While the caller waits with the barrier unmet, some thread is in the middle of a block. -/
theorem holder_exists {it : Item} (wf : WF it) {s : St} (h : Inv it s) (ha : AllClaimed it s)
    (hlt : s.completed < it.blockLast) : ∃ c, c ≤ it.wakeup ∧ (s.pc c).busy = true := by
  refine Classical.byContradiction fun hcon => ?_
  have nb : ∀ c, c ≤ it.wakeup → (s.pc c).busy = false := by
    intro c hc
    cases hb : (s.pc c).busy
    · rfl
    · exact absurd ⟨c, hc, hb⟩ hcon
  have hall : ∀ b, b < it.blockLast → b ∈ s.doneL := by
    intro b hb
    obtain ⟨ch, pos, h1, h2, h3⟩ := logical_surj wf hb
    have hc : Claimed it s b := ⟨ch, pos, h1, h2, Nat.lt_of_lt_of_le h2 (ha ch h1), h3⟩
    rcases h.claimedCov b hc with hl | ⟨c, hcw, hh⟩
    · rcases h.logCov b hl with hd | ⟨c, hcw, hh⟩
      · exact hd
      · have := nb c hcw; rw [hh] at this; simp [PC.busy] at this
    · have := nb c hcw
      cases hp : s.pc c <;> rw [hp] at hh this <;> simp [Holds, PC.busy] at hh this
  have hsub : List.range it.blockLast ⊆ s.doneL := fun b hb => hall b (List.mem_range.mp hb)
  have := List.Nodup.length_le_of_subset List.nodup_range hsub
  rw [List.length_range, h.doneLen] at this
  omega

theorem live {it : Item} (wf : WF it) {σ : Nat → Nat} (hf : Fair it σ) :
    ∃ t, (trace it σ t).pc 0 = .returned := by
  obtain ⟨t0, ht0⟩ := reach_wait wf hf.1
  rcases ht0 with hw | hr
  case inr => exact ⟨t0, hr⟩
  have hall : ∀ k, AllClaimed it (trace it σ (t0 + k)) := by
    intro k
    induction k with
    | zero => exact (inv_trace wf σ t0).retAll 0 (Or.inr (Or.inl hw))
    | succ k ih => exact allClaimed_step ih _
  have hallt : ∀ t, t0 ≤ t → AllClaimed it (trace it σ t) := by
    intro t ht; have := hall (t - t0); rwa [show t0 + (t - t0) = t by omega] at this
  -- caller stays waiting until it returns
  have hstay : ∀ t, (trace it σ t).pc 0 = .wait →
      (trace it σ (t + 1)).pc 0 = .wait ∨ (trace it σ (t + 1)).pc 0 = .returned := by
    intro t hp
    have et : trace it σ (t + 1) = step it (trace it σ t) (σ t) := rfl
    rw [et]
    by_cases e : σ t = 0
    · rw [e]
      by_cases hb : (trace it σ t).completed < it.blockLast
      · left; simp [step, hp, hb]
      · right; simp [step, hp, hb]
    · rw [step_other it _ (Ne.symm e)]; exact Or.inl hp
  have hstay' : ∀ t k, (trace it σ t).pc 0 = .wait →
      (∃ u, (trace it σ u).pc 0 = .returned) ∨ (trace it σ (t + k)).pc 0 = .wait := by
    intro t k hp
    induction k with
    | zero => exact Or.inr hp
    | succ k ih =>
      rcases ih with h | h
      · exact Or.inl h
      · rcases hstay _ h with h | h
        · exact Or.inr h
        · exact Or.inl ⟨_, h⟩
  have key : ∀ n t, t0 ≤ t → (trace it σ t).pc 0 = .wait → H it (trace it σ t) ≤ n →
      ∃ u, (trace it σ u).pc 0 = .returned := by
    intro n
    induction n with
    | zero =>
      intro t ht hp hH
      have nolt : ¬ (trace it σ t).completed < it.blockLast := by
        intro hlt
        obtain ⟨c, hc, hb⟩ := holder_exists wf (inv_trace wf σ t) (hallt t ht) hlt
        have := H_step_lt (hallt t ht) hc hb
        omega
      -- find next caller step; completed never decreases
      obtain ⟨t', h1, h2, h3⟩ := next_time (hf.1 t)
      rcases hstay' t (t' - t) hp with h | h
      · exact h
      · rw [show t + (t' - t) = t' by omega] at h
        have hH' : ∀ k, H it (trace it σ (t + k)) = 0 := by
          intro k
          induction k with
          | zero => exact Nat.le_zero.mp hH
          | succ k ih =>
            have := H_step_le (hallt (t + k) (by omega)) (σ (t + k))
            have e : trace it σ (t + (k + 1)) = step it (trace it σ (t + k)) (σ (t + k)) := rfl
            rw [e]; omega
        have hH0 : H it (trace it σ t') = 0 := by
          have := hH' (t' - t); rwa [show t + (t' - t) = t' by omega] at this
        have nolt' : ¬ (trace it σ t').completed < it.blockLast := by
          intro hlt
          obtain ⟨c, hc, hb⟩ := holder_exists wf (inv_trace wf σ t') (hallt t' (by omega)) hlt
          have := H_step_lt (hallt t' (by omega)) hc hb
          omega
        refine ⟨t' + 1, ?_⟩
        show (step it (trace it σ t') (σ t')).pc 0 = _
        rw [h2]; unfold step
        simp [h, nolt']
    | succ n ih =>
      intro t ht hp hH
      by_cases hlt : (trace it σ t).completed < it.blockLast
      · obtain ⟨c, hc, hb⟩ := holder_exists wf (inv_trace wf σ t) (hallt t ht) hlt
        obtain ⟨t', h1, h2, h3⟩ := next_time (hf.2 t c hb)
        have hpc : ∀ k, t + k ≤ t' → (trace it σ (t + k)).pc c = (trace it σ t).pc c := by
          intro k
          induction k with
          | zero => intro _; rfl
          | succ k ihk =>
            intro hk
            rw [← ihk (by omega)]
            exact step_other it _ (Ne.symm (h3 (t + k) (by omega) (by omega)))
        have hHk : ∀ k, H it (trace it σ (t + k)) ≤ n + 1 := by
          intro k
          induction k with
          | zero => exact hH
          | succ k ihk =>
            exact Nat.le_trans (H_step_le (hallt (t + k) (by omega)) (σ (t + k))) ihk
        have e' : t + (t' - t) = t' := by omega
        have hb' : ((trace it σ t').pc c).busy = true := by
          have := hpc (t' - t) (by omega); rw [e'] at this; rw [this]; exact hb
        have hH' := hHk (t' - t); rw [e'] at hH'
        have hdec := H_step_lt (hallt t' (by omega)) hc hb'
        rcases hstay' t (t' + 1 - t) hp with h | h
        · exact h
        · rw [show t + (t' + 1 - t) = t' + 1 by omega] at h
          refine ih (t' + 1) (by omega) h ?_
          have e : trace it σ (t' + 1) = step it (trace it σ t') c := by simp [trace, h2]
          rw [e]; omega
      · obtain ⟨t', h1, h2, h3⟩ := next_time (hf.1 t)
        have hcomp : ∀ s c, s.completed ≤ (step it s c).completed := by
          intro s c
          unfold step
          split
          · exact Nat.le_refl _
          split <;> first
            | exact Nat.le_refl _
            | exact Nat.le_succ _
            | skip
          · split
            · exact Nat.le_refl _
            · split <;> exact Nat.le_refl _
          · split <;> exact Nat.le_refl _
        have hck : ∀ k, it.blockLast ≤ (trace it σ (t + k)).completed := by
          intro k
          induction k with
          | zero => exact Nat.le_of_not_lt hlt
          | succ k ihk => exact Nat.le_trans ihk (hcomp _ _)
        rcases hstay' t (t' - t) hp with h | h
        · exact h
        · have hc' := hck (t' - t)
          rw [show t + (t' - t) = t' by omega] at h hc'
          refine ⟨t' + 1, ?_⟩
          show (step it (trace it σ t') (σ t')).pc 0 = _
          rw [h2]; unfold step
          have : ¬ (trace it σ t').completed < it.blockLast := by omega
          simp [h, this]
  exact key _ t0 (Nat.le_refl _) hw (Nat.le_refl _)

/-! ### Coverage of elements -/

theorem and_mask (n : Nat) : n &&& MASK = n % 16384 := by
  have := Nat.and_two_pow_sub_one_eq_mod n 14
  simpa [MASK, CHUNK] using this

/-- In generic 16384-element mode block `b` is the `b`-th interval of length 16384, clipped to
the array. -/
theorem blockLen_generic (len : Nat) (req : Int) (mw zz b : Nat)
    (hb : b < (workMainSetup len req mw CHUNK true zz).blockLast) :
    (workMainSetup len req mw CHUNK true zz).blockLen b = min 16384 (len - 16384 * b) ∧
    16384 * b < len := by
  have hbl : (workMainSetup len req mw CHUNK true zz).blockLast = (len + 16383) / 16384 := by
    simp [workMainSetup, CHUNK]
  have hbs : (workMainSetup len req mw CHUNK true zz).blockSize = 16384 := rfl
  have htot : (workMainSetup len req mw CHUNK true zz).total = len := rfl
  unfold Item.blockLen
  rw [hbl] at hb ⊢
  rw [htot, hbs, and_mask]
  split
  · split <;> omega
  · omega

theorem blockLast_generic (len : Nat) (req : Int) (mw zz : Nat) :
    (workMainSetup len req mw CHUNK true zz).blockLast = (len + 16383) / 16384 := by
  simp [workMainSetup, CHUNK]

theorem countP_one {l : List Nat} (hn : l.Nodup) {p : Nat → Bool} {b : Nat} (hb : b ∈ l)
    (hp : p b = true) (hu : ∀ x ∈ l, p x = true → x = b) : l.countP p = 1 := by
  induction l with
  | nil => cases hb
  | cons a l ih =>
    have hn' := List.nodup_cons.mp hn
    rcases List.mem_cons.mp hb with rfl | hm
    · rw [List.countP_cons_of_pos hp]
      have : l.countP p = 0 := by
        rw [List.countP_eq_zero]
        intro x hx hpx
        have := hu x (List.mem_cons_of_mem _ hx) hpx
        subst this; exact hn'.1 hx
      omega
    · have : a ≠ b := by rintro rfl; exact hn'.1 hm
      have hpa : ¬ p a = true := fun h => this (hu a List.mem_cons_self h)
      rw [List.countP_cons_of_neg hpa]
      exact ih hn'.2 hm fun x hx => hu x (List.mem_cons_of_mem _ hx)

theorem countP_le_one {l : List Nat} (hn : l.Nodup) {p : Nat → Bool}
    (hu : ∀ x ∈ l, ∀ y ∈ l, p x = true → p y = true → x = y) : l.countP p ≤ 1 := by
  by_cases h : ∃ b ∈ l, p b = true
  · obtain ⟨b, hb, hpb⟩ := h
    exact Nat.le_of_eq (countP_one hn hb hpb fun x hx hpx => hu x hx b hb hpx hpb)
  · have : l.countP p = 0 := by
      rw [List.countP_eq_zero]; exact fun x hx hpx => h ⟨x, hx, hpx⟩
    omega

end Pnumpy.Work
