import Verif.Spec.TermsWork
import Verif.Proofs.TsoWork
/-
Progress of the store-buffer model of channel-mode calls with arbitrary block code.
-/
namespace Pnumpy.TsoWork
open Work
open Pnumpy.Tso (load locked work_stutter)
open Pnumpy.TsoCounter (Prog)

variable {V : Type} [DecidableEq V]

/-- The thread whose control state moves, or a number no thread has. -/
def who (it : Item) (flag : Nat × V) (s : St V) : Act → Nat
  | .drain _ => it.wakeup + 1
  | .go c =>
    if it.wakeup < c then it.wakeup + 1 else
    match s.ctl.pc c with
    | .idle => if load s.mem (s.buf c) flag.1 = flag.2 then c else it.wakeup + 1
    | .run _ =>
      match s.code c with
      | .done => c
      | _ => it.wakeup + 1
    | .bump _ _ => if s.buf c = [] then c else it.wakeup + 1
    | p => if locked it c p = true ∧ s.buf c ≠ [] then it.wakeup + 1 else c

theorem step_ctl (it : Item) (prog : Nat → Prog V) (flag : Nat × V) (s : St V) (a : Act) : (step it prog flag s a).ctl = Work.step it s.ctl (who it flag s a) := by
  have hw : Work.step it s.ctl (it.wakeup + 1) = s.ctl := work_stutter it _ (Nat.lt_succ_self _)
  cases a with
  | drain c => unfold step who; simp only [hw]; split <;> rfl
  | go c =>
    unfold step who
    by_cases h : it.wakeup < c
    · simp only [if_pos h, hw]
    · simp only [if_neg h]
      cases hp : s.ctl.pc c <;> simp only
      case run b => cases s.code c <;> first | rfl | exact hw.symm
      all_goals split
      all_goals first | rfl | exact hw.symm

section
variable {it : Item} {prog : Nat → Prog V} {mem0 : Nat → V} {before : List (Nat × V)} {flag : Nat × V} {σ : Nat → Act}

theorem trace_ctl (t : Nat) : (trace it prog mem0 before flag σ t).ctl =
    Work.trace it (fun t => who it flag (trace it prog mem0 before flag σ t) (σ t)) t := by
  induction t with
  | zero => rfl
  | succ t ih => rw [trace, step_ctl, Work.trace, ih]

theorem trace_pc {c t : Nat} (h : ∀ u, t ≤ u → who it flag (trace it prog mem0 before flag σ u) (σ u) ≠ c) (u : Nat) (hu : t ≤ u) :
    (trace it prog mem0 before flag σ u).ctl.pc c = (trace it prog mem0 before flag σ t).ctl.pc c := by
  induction hu with
  | refl => rfl
  | @step u hu ih => rw [trace, step_ctl, step_other _ _ (Ne.symm (h u hu)), ih]

theorem step_buf (s : St V) (a : Act) (c : Nat) (hr : ∀ b, s.ctl.pc c ≠ .run b) :
    (step it prog flag s a).buf c = s.buf c ∨ a = .drain c ∧ (step it prog flag s a).buf c = (s.buf c).tail := by
  cases a with
  | drain d =>
    unfold step
    simp only
    split
    · exact Or.inl rfl
    · rename_i x v l hb
      by_cases hd : c = d
      · subst hd; refine Or.inr ⟨rfl, ?_⟩; simp only [upd_self, hb]; rfl
      · refine Or.inl ?_; simp only [upd_ne _ _ hd]
  | go d =>
    refine Or.inl ?_
    unfold step
    simp only
    split
    · rfl
    · split
      · split <;> rfl
      · rename_i b hb
        have hd : c ≠ d := fun e => hr b (by rw [e]; exact hb)
        split
        · rfl
        · simp only [upd_ne _ _ hd]
        · rfl
      · split <;> rfl
      · split <;> rfl

theorem code_ends {c b t : Nat} (hc : c ≤ it.wakeup)
    (hpc : ∀ u, t ≤ u → (trace it prog mem0 before flag σ u).ctl.pc c = .run b)
    (hgo : ∀ u, t ≤ u → ∃ v, u ≤ v ∧ σ v = .go c) :
    ∃ u, t ≤ u ∧ (trace it prog mem0 before flag σ u).code c = .done := by
  have hc' : ¬ it.wakeup < c := by omega
  have hkeep : ∀ u, t ≤ u → σ u ≠ .go c → (trace it prog mem0 before flag σ (u + 1)).code c = (trace it prog mem0 before flag σ u).code c := by
    intro u hu hne
    rw [trace]
    generalize trace it prog mem0 before flag σ u = s at *
    cases ha : σ u with
    | drain d => unfold step; simp only; split <;> rfl
    | go d =>
      have hcd : c ≠ d := fun e => hne (by rw [ha, e])
      unfold step
      simp only
      split
      · rfl
      · split
        · split <;> rfl
        · split
          · simp only [upd_ne _ _ hcd]
          · simp only [upd_ne _ _ hcd]
          · rfl
        · split
          · simp only [upd_ne _ _ hcd]
          · rfl
        · split <;> rfl
  have hnext : ∀ u, t ≤ u → ∃ v, u ≤ v ∧ σ v = .go c ∧ (trace it prog mem0 before flag σ v).code c = (trace it prog mem0 before flag σ u).code c := by
    intro u hu
    obtain ⟨v0, h1, h2⟩ := hgo u hu
    have : ∀ k u, t ≤ u → u + k = v0 → ∃ v, u ≤ v ∧ σ v = .go c ∧ (trace it prog mem0 before flag σ v).code c = (trace it prog mem0 before flag σ u).code c := by
      intro k
      induction k with
      | zero => intro u _ he; exact ⟨u, Nat.le_refl _, by rw [show u = v0 by omega]; exact h2, rfl⟩
      | succ k ih =>
        intro u hu he
        by_cases hs : σ u = .go c
        · exact ⟨u, Nat.le_refl _, hs, rfl⟩
        · obtain ⟨v, g1, g2, g3⟩ := ih (u + 1) (by omega) (by omega)
          exact ⟨v, by omega, g2, by rw [g3, hkeep u hu hs]⟩
    exact this (v0 - u) u hu (by omega)
  have key : ∀ (p : Prog V) u, t ≤ u → (trace it prog mem0 before flag σ u).code c = p → ∃ v, t ≤ v ∧ (trace it prog mem0 before flag σ v).code c = .done := by
    intro p
    induction p with
    | done => intro u hu hp; exact ⟨u, hu, hp⟩
    | load a k ih =>
      intro u hu hp
      obtain ⟨v, h1, h2, h3⟩ := hnext u hu
      rw [hp] at h3
      refine ih _ (v + 1) (by omega) (?_ : _ = k (load (trace it prog mem0 before flag σ v).mem ((trace it prog mem0 before flag σ v).buf c) a))
      rw [trace, h2]
      unfold step
      simp only [if_neg hc', hpc v (by omega), h3, upd_self]
    | store a x k ih =>
      intro u hu hp
      obtain ⟨v, h1, h2, h3⟩ := hnext u hu
      rw [hp] at h3
      refine ih (v + 1) (by omega) ?_
      rw [trace, h2]
      unfold step
      simp only [if_neg hc', hpc v (by omega), h3, upd_self]
  exact key _ t (Nat.le_refl _) rfl

/-- A thread that keeps being scheduled while it is in its present place moves on, if the stores in its buffer keep reaching memory. -/
theorem moves {c t : Nat} {p : PC} (hc : c ≤ it.wakeup) (hp : (trace it prog mem0 before flag σ t).ctl.pc c = p) (hni : p ≠ .idle)
    (hgo : ∀ u, t ≤ u → (trace it prog mem0 before flag σ u).ctl.pc c = p → ∃ v, u ≤ v ∧ σ v = .go c)
    (hdr : ∀ u, (trace it prog mem0 before flag σ u).buf c ≠ [] → ∃ v, u ≤ v ∧ σ v = .drain c) :
    ∃ u, t ≤ u ∧ who it flag (trace it prog mem0 before flag σ u) (σ u) = c := by
  refine Classical.byContradiction fun hno => ?_
  have hno' : ∀ u, t ≤ u → who it flag (trace it prog mem0 before flag σ u) (σ u) ≠ c := fun u hu e => hno ⟨u, hu, e⟩
  have hpc : ∀ u, t ≤ u → (trace it prog mem0 before flag σ u).ctl.pc c = p := fun u hu => by rw [trace_pc hno' u hu, hp]
  have hc' : ¬ it.wakeup < c := by omega
  by_cases hrun : ∃ b, p = .run b
  · obtain ⟨b, rfl⟩ := hrun
    obtain ⟨u, hu, hd⟩ := code_ends hc hpc (fun u hu => hgo u hu (hpc u hu))
    obtain ⟨v0, hv0, hσ0⟩ := hgo u hu (hpc u hu)
    -- the first time the thread is scheduled after its code has ended
    have hst : ∀ w, u ≤ w → (trace it prog mem0 before flag σ w).code c = .done := by
      intro w hw
      induction hw with
      | refl => exact hd
      | @step w hw ih =>
        rw [trace]
        have hpw := hpc w (by have : u ≤ w := hw; omega)
        generalize trace it prog mem0 before flag σ w = s at *
        cases ha : σ w with
        | drain d => unfold step; simp only; split <;> exact ih
        | go d =>
          unfold step
          simp only
          split
          · exact ih
          · by_cases hcd : c = d
            · subst hcd
              simp only [hpw, ih]
            · split
              · split <;> exact ih
              · split
                · simp only [upd_ne _ _ hcd]; exact ih
                · simp only [upd_ne _ _ hcd]; exact ih
                · exact ih
              · split
                · simp only [upd_ne _ _ hcd]; exact ih
                · exact ih
              · split <;> exact ih
    refine hno' v0 (by omega) ?_
    rw [hσ0]; unfold who; simp only [hpc v0 (by omega), hst v0 hv0]
    rw [if_neg hc']
  · have hnr : ∀ u, t ≤ u → ∀ b, (trace it prog mem0 before flag σ u).ctl.pc c ≠ .run b := by
      intro u hu b hb; rw [hpc u hu] at hb; exact hrun ⟨b, hb⟩
    have hlen : ∀ u v, t ≤ u → u ≤ v → ((trace it prog mem0 before flag σ v).buf c).length ≤ ((trace it prog mem0 before flag σ u).buf c).length := by
      intro u v hu huv
      induction huv with
      | refl => exact Nat.le_refl _
      | @step v hv ih =>
        rw [trace]
        rcases step_buf (it := it) (prog := prog) (flag := flag) _ (σ v) c (hnr v (Nat.le_trans hu hv)) with h | ⟨_, h⟩
        · rw [h]; exact ih
        · rw [h, List.length_tail]; omega
    have hempty : ∀ k u, t ≤ u → ((trace it prog mem0 before flag σ u).buf c).length ≤ k → ∃ v, u ≤ v ∧ (trace it prog mem0 before flag σ v).buf c = [] := by
      intro k
      induction k with
      | zero => intro u hu hl; exact ⟨u, Nat.le_refl _, List.length_eq_zero_iff.1 (by omega)⟩
      | succ k ih =>
        intro u hu hl
        by_cases he : (trace it prog mem0 before flag σ u).buf c = []
        · exact ⟨u, Nat.le_refl _, he⟩
        · obtain ⟨v, hv, hσ⟩ := hdr u he
          have h1 := hlen u v hu hv
          have h2 : ((trace it prog mem0 before flag σ (v + 1)).buf c).length ≤ k := by
            have hst : (trace it prog mem0 before flag σ (v + 1)).buf c = ((trace it prog mem0 before flag σ v).buf c).tail := by
              rw [trace, hσ]
              unfold step
              simp only
              split
              · rename_i h; rw [h]; rfl
              · rename_i h; simp only [upd_self, h]; rfl
            rw [hst, List.length_tail]; omega
          obtain ⟨w, hw, hwe⟩ := ih (v + 1) (by omega) h2
          exact ⟨w, by omega, hwe⟩
    obtain ⟨u, hu, he⟩ := hempty _ t (Nat.le_refl _) (Nat.le_refl _)
    obtain ⟨v, hv, hσ⟩ := hgo u hu (hpc u hu)
    have hev : (trace it prog mem0 before flag σ v).buf c = [] := by
      have := hlen u v hu hv
      rw [he] at this
      exact List.length_eq_zero_iff.1 (by simpa using this)
    refine hno' v (by omega) ?_
    rw [hσ]; unfold who; simp only
    rw [if_neg hc']
    have hpv := hpc v (by omega)
    split
    · rename_i h; rw [hpv] at h; exact absurd h hni
    · rename_i b h; exact absurd h (hnr v (by omega) b)
    · rw [if_pos hev]
    · rw [if_neg]
      rintro ⟨_, h⟩
      exact h hev

end

end Pnumpy.TsoWork
