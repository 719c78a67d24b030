import Verif.Spec.TermsWork
import Verif.Proofs.Tso
/-
Progress of the store-buffer model.
-/
namespace Pnumpy.Tso
open Work Props

variable {V : Type} [DecidableEq V]

/-- The thread whose control state moves, or a number no thread has. -/
def who (it : Item) (flag : Nat × V) (s : St V) : Act → Nat
  | .drain _ => it.wakeup + 1
  | .go c =>
    if it.wakeup < c then c else
    match s.ctl.pc c with
    | .idle => if load s.mem (s.buf c) flag.1 = flag.2 then c else it.wakeup + 1
    | .run b => if s.pos c < it.blockLen b then it.wakeup + 1 else c
    | .bump _ _ => if s.buf c = [] then c else it.wakeup + 1
    | p => if locked it c p = true ∧ s.buf c ≠ [] then it.wakeup + 1 else c

theorem work_stutter (it : Item) (s : Work.St) {c : Nat} (h : it.wakeup < c) : Work.step it s c = s := by unfold Work.step; rw [if_pos h]

theorem step_ctl (it : Item) (job : Job V) (flag : Nat × V) (s : St V) (a : Act) : (step it job flag s a).ctl = Work.step it s.ctl (who it flag s a) := by
  have hw : Work.step it s.ctl (it.wakeup + 1) = s.ctl := work_stutter it _ (Nat.lt_succ_self _)
  cases a with
  | drain c => unfold step who; simp only [hw]; split <;> rfl
  | go c =>
    unfold step who
    by_cases h : it.wakeup < c
    · simp only [if_pos h]; rw [work_stutter it _ h]
    · simp only [if_neg h]
      cases hp : s.ctl.pc c <;> simp only
      all_goals split
      all_goals first | rfl | exact hw.symm

section
variable {it : Item} {job : Job V} {mem0 : Nat → V} {before : List (Nat × V)} {flag : Nat × V} {σ : Nat → Act}

theorem trace_ctl (t : Nat) : (trace it job mem0 before flag σ t).ctl =
    Work.trace it (fun t => who it flag (trace it job mem0 before flag σ t) (σ t)) t := by
  induction t with
  | zero => rfl
  | succ t ih => rw [trace, step_ctl, Work.trace, ih]

theorem trace_pc {c t : Nat} (h : ∀ u, t ≤ u → who it flag (trace it job mem0 before flag σ u) (σ u) ≠ c) (u : Nat) (hu : t ≤ u) :
    (trace it job mem0 before flag σ u).ctl.pc c = (trace it job mem0 before flag σ t).ctl.pc c := by
  induction hu with
  | refl => rfl
  | @step u hu ih => rw [trace, step_ctl, step_other _ _ (Ne.symm (h u hu)), ih]

/-- What a step does to one thread's buffer and position. -/
theorem step_buf (s : St V) (a : Act) (c : Nat) (hr : ∀ b, s.ctl.pc c ≠ .run b) :
    (step it job flag s a).buf c = s.buf c ∨ a = .drain c ∧ (step it job flag s a).buf c = (s.buf c).tail := by
  cases a with
  | drain d =>
    unfold step
    simp only
    split
    · exact Or.inl rfl
    · rename_i x v l hb
      by_cases hd : c = d
      · subst hd; refine Or.inr ⟨rfl, ?_⟩; simp only [upd_self, hb]; rfl
      · refine Or.inl ?_; simp only [upd_ne _ _ hd]
  | go d =>
    refine Or.inl ?_
    unfold step
    simp only
    split
    · rfl
    · split
      · split <;> rfl
      · rename_i b hb
        have hd : c ≠ d := fun e => hr b (by rw [e]; exact hb)
        split
        · simp only [upd_ne _ _ hd]
        · rfl
      · split <;> rfl
      · split <;> rfl

theorem step_pos_ge {s : St V} {a : Act} {c b : Nat} (hr : s.ctl.pc c = .run b) :
    s.pos c ≤ (step it job flag s a).pos c ∧ (a = .go c → c ≤ it.wakeup → s.pos c < it.blockLen b → s.pos c < (step it job flag s a).pos c) := by
  cases a with
  | drain d =>
    unfold step
    simp only
    split <;> exact ⟨Nat.le_refl _, fun h => by cases h⟩
  | go d =>
    by_cases hd : c = d
    · subst hd
      unfold step
      simp only [hr]
      split
      · exact ⟨Nat.le_refl _, fun _ h => by omega⟩
      · split
        · simp only [upd_self]; exact ⟨Nat.le_succ _, fun _ _ _ => Nat.lt_succ_self _⟩
        · exact ⟨Nat.le_refl _, fun _ _ h => by omega⟩
    · have he : ∀ x : Act, x = .go c → x ≠ .go d := by rintro _ rfl h; cases h; exact hd rfl
      refine ⟨?_, fun h => by cases h; exact absurd rfl hd⟩
      unfold step
      simp only
      split
      · exact Nat.le_refl _
      · split
        · split <;> exact Nat.le_refl _
        · split
          · simp only [upd_ne _ _ hd]; exact Nat.le_refl _
          · exact Nat.le_refl _
        · split
          · simp only [upd_ne _ _ hd]; exact Nat.le_refl _
          · exact Nat.le_refl _
        · split <;> exact Nat.le_refl _

/-- A thread that keeps being scheduled while it is in its present place moves on, if the stores in its buffer keep reaching memory. -/
theorem moves {c t : Nat} {p : PC} (hc : c ≤ it.wakeup) (hp : (trace it job mem0 before flag σ t).ctl.pc c = p) (hni : p ≠ .idle)
    (hgo : ∀ u, t ≤ u → (trace it job mem0 before flag σ u).ctl.pc c = p → ∃ v, u ≤ v ∧ σ v = .go c)
    (hdr : ∀ u, (trace it job mem0 before flag σ u).buf c ≠ [] → ∃ v, u ≤ v ∧ σ v = .drain c) :
    ∃ u, t ≤ u ∧ who it flag (trace it job mem0 before flag σ u) (σ u) = c := by
  refine Classical.byContradiction fun hno => ?_
  have hno' : ∀ u, t ≤ u → who it flag (trace it job mem0 before flag σ u) (σ u) ≠ c := fun u hu e => hno ⟨u, hu, e⟩
  have hpc : ∀ u, t ≤ u → (trace it job mem0 before flag σ u).ctl.pc c = p := fun u hu => by rw [trace_pc hno' u hu, hp]
  have hc' : ¬ it.wakeup < c := by omega
  by_cases hrun : ∃ b, p = .run b
  · obtain ⟨b, rfl⟩ := hrun
    have hmono : ∀ u v, t ≤ u → u ≤ v → (trace it job mem0 before flag σ u).pos c ≤ (trace it job mem0 before flag σ v).pos c := by
      intro u v hu huv
      induction huv with
      | refl => exact Nat.le_refl _
      | @step v hv ih => exact Nat.le_trans ih (step_pos_ge (hpc v (Nat.le_trans hu hv))).1
    have hreach : ∀ k, k ≤ it.blockLen b → ∃ u, t ≤ u ∧ k ≤ (trace it job mem0 before flag σ u).pos c := by
      intro k
      induction k with
      | zero => intro _; exact ⟨t, Nat.le_refl _, Nat.zero_le _⟩
      | succ k ih =>
        intro hk
        obtain ⟨u, hu, hku⟩ := ih (by omega)
        obtain ⟨v, hv, hσ⟩ := hgo u hu (hpc u hu)
        have h1 := hmono u v hu hv
        by_cases hlt : (trace it job mem0 before flag σ v).pos c < it.blockLen b
        · have := (step_pos_ge (it := it) (job := job) (flag := flag) (hpc v (by omega))).2 hσ hc hlt
          refine ⟨v + 1, by omega, ?_⟩
          rw [trace]; omega
        · exact ⟨v, by omega, by omega⟩
    obtain ⟨u, hu, hku⟩ := hreach _ (Nat.le_refl _)
    obtain ⟨v, hv, hσ⟩ := hgo u hu (hpc u hu)
    have h1 := hmono u v hu hv
    refine hno' v (by omega) ?_
    rw [hσ]; unfold who; simp only [hpc v (by omega)]
    rw [if_neg hc', if_neg (by omega)]
  · have hnr : ∀ u, t ≤ u → ∀ b, (trace it job mem0 before flag σ u).ctl.pc c ≠ .run b := by
      intro u hu b hb; rw [hpc u hu] at hb; exact hrun ⟨b, hb⟩
    have hlen : ∀ u v, t ≤ u → u ≤ v → ((trace it job mem0 before flag σ v).buf c).length ≤ ((trace it job mem0 before flag σ u).buf c).length := by
      intro u v hu huv
      induction huv with
      | refl => exact Nat.le_refl _
      | @step v hv ih =>
        rw [trace]
        rcases step_buf (it := it) (job := job) (flag := flag) _ (σ v) c (hnr v (Nat.le_trans hu hv)) with h | ⟨_, h⟩
        · rw [h]; exact ih
        · rw [h, List.length_tail]; omega
    have hempty : ∀ k u, t ≤ u → ((trace it job mem0 before flag σ u).buf c).length ≤ k → ∃ v, u ≤ v ∧ (trace it job mem0 before flag σ v).buf c = [] := by
      intro k
      induction k with
      | zero => intro u hu hl; exact ⟨u, Nat.le_refl _, List.length_eq_zero_iff.1 (by omega)⟩
      | succ k ih =>
        intro u hu hl
        by_cases he : (trace it job mem0 before flag σ u).buf c = []
        · exact ⟨u, Nat.le_refl _, he⟩
        · obtain ⟨v, hv, hσ⟩ := hdr u he
          have h1 := hlen u v hu hv
          have h2 : ((trace it job mem0 before flag σ (v + 1)).buf c).length ≤ k := by
            have hst : (trace it job mem0 before flag σ (v + 1)).buf c = ((trace it job mem0 before flag σ v).buf c).tail := by
              rw [trace, hσ]
              unfold step
              simp only
              split
              · rename_i h; rw [h]; rfl
              · rename_i h; simp only [upd_self, h]; rfl
            rw [hst, List.length_tail]; omega
          obtain ⟨w, hw, hwe⟩ := ih (v + 1) (by omega) h2
          exact ⟨w, by omega, hwe⟩
    obtain ⟨u, hu, he⟩ := hempty _ t (Nat.le_refl _) (Nat.le_refl _)
    obtain ⟨v, hv, hσ⟩ := hgo u hu (hpc u hu)
    have hev : (trace it job mem0 before flag σ v).buf c = [] := by
      have := hlen u v hu hv
      rw [he] at this
      exact List.length_eq_zero_iff.1 (by simpa using this)
    refine hno' v (by omega) ?_
    rw [hσ]; unfold who; simp only
    rw [if_neg hc']
    have hpv := hpc v (by omega)
    split
    · rename_i h; rw [hpv] at h; exact absurd h hni
    · rename_i b h; exact absurd h (hnr v (by omega) b)
    · rw [if_pos hev]
    · rw [if_neg]
      rintro ⟨_, h⟩
      exact h hev

end

end Pnumpy.Tso
