import Verif.Spec.TermsWork
import Verif.Proofs.TsoCounter
/-
Progress of the store-buffer model of counter-mode calls.
-/
namespace Pnumpy.TsoCounter
open Pnumpy.Work (upd upd_self upd_ne)
open Pnumpy.Tso (load)
open Counter (PC Cfg)

variable {V : Type} [DecidableEq V]

/-- The control step a step of the machine amounts to; a step of a thread that does not exist if it is none. -/
def who (g : Cfg) (flag : Nat × V) (s : St V) : Act → Counter.Act
  | .drain _ => .go (g.wakeup + 1)
  | .wake c => .wake c
  | .go c =>
    if g.wakeup < c then .go (g.wakeup + 1) else
    match s.ctl.pc c with
    | .idle => if load s.mem (s.buf c) flag.1 = flag.2 then .go c else .go (g.wakeup + 1)
    | .fetch _ => if s.buf c ≠ [] then .go (g.wakeup + 1) else .go c
    | .run _ =>
      match s.code c with
      | .done => .go c
      | _ => .go (g.wakeup + 1)
    | .complete _ => if s.buf c ≠ [] then .go (g.wakeup + 1) else .go c
    | _ => .go c

theorem stutter (g : Cfg) (s : Counter.St) : Counter.step g s (.go (g.wakeup + 1)) = s := by
  unfold Counter.step; simp only; rw [if_pos (Nat.lt_succ_self _)]

theorem step_ctl (g : Cfg) (prog : Nat → Prog V) (flag : Nat × V) (s : St V) (a : Act) :
    (step g prog flag s a).ctl = Counter.step g s.ctl (who g flag s a) := by
  cases a with
  | drain c => unfold step who; simp only [stutter]; split <;> rfl
  | wake c => rfl
  | go c =>
    unfold step who
    by_cases h : g.wakeup < c
    · simp only [if_pos h, stutter]
    · simp only [if_neg h]
      cases hp : s.ctl.pc c <;> simp only
      · split <;> first | rfl | exact (stutter _ _).symm
      · split <;> first | rfl | exact (stutter _ _).symm
      · cases s.code c <;> first | rfl | exact (stutter _ _).symm
      · split <;> first | rfl | exact (stutter _ _).symm

section
variable {g : Cfg} {prog : Nat → Prog V} {mem0 : Nat → V} {before : List (Nat × V)} {flag : Nat × V} {σ : Nat → Act}

/-- The schedule of the control steps. -/
def ctlSched (g : Cfg) (prog : Nat → Prog V) (mem0 : Nat → V) (before : List (Nat × V)) (flag : Nat × V) (σ : Nat → Act) (t : Nat) : Counter.Act :=
  who g flag (trace g prog mem0 before flag σ t) (σ t)

theorem trace_ctl (t : Nat) : (trace g prog mem0 before flag σ t).ctl = Counter.trace g (ctlSched g prog mem0 before flag σ) t := by
  induction t with
  | zero => rfl
  | succ t ih => rw [trace, step_ctl, Counter.trace, ih]; rfl

/-- Number of steps left of straight code does not exist in general (it depends on memory), but code is finite: a thread in a task gets to its end. -/
theorem code_ends {c b t : Nat} (hc : c ≤ g.wakeup)
    (hpc : ∀ u, t ≤ u → (trace g prog mem0 before flag σ u).ctl.pc c = .run b)
    (hgo : ∀ u, t ≤ u → ∃ v, u ≤ v ∧ σ v = .go c) :
    ∃ u, t ≤ u ∧ (trace g prog mem0 before flag σ u).code c = .done := by
  have hc' : ¬ g.wakeup < c := by omega
  -- the code does not change while `c` is not scheduled
  have hkeep : ∀ u, t ≤ u → σ u ≠ .go c → (trace g prog mem0 before flag σ (u + 1)).code c = (trace g prog mem0 before flag σ u).code c := by
    intro u hu hne
    rw [trace]
    generalize trace g prog mem0 before flag σ u = s at *
    cases ha : σ u with
    | drain d => unfold step; simp only; split <;> rfl
    | wake d => rfl
    | go d =>
      have hcd : c ≠ d := fun e => hne (by rw [ha, e])
      unfold step
      simp only
      split
      · rfl
      · split
        · split <;> rfl
        · split
          · rfl
          · simp only [upd_ne _ _ hcd]
        · split
          · simp only [upd_ne _ _ hcd]
          · simp only [upd_ne _ _ hcd]
          · rfl
        · split <;> rfl
        · rfl
  have hnext : ∀ u, t ≤ u → ∃ v, u ≤ v ∧ σ v = .go c ∧ (trace g prog mem0 before flag σ v).code c = (trace g prog mem0 before flag σ u).code c := by
    intro u hu
    obtain ⟨v0, h1, h2⟩ := hgo u hu
    have : ∀ k u, t ≤ u → u + k = v0 → ∃ v, u ≤ v ∧ σ v = .go c ∧ (trace g prog mem0 before flag σ v).code c = (trace g prog mem0 before flag σ u).code c := by
      intro k
      induction k with
      | zero => intro u _ he; exact ⟨u, Nat.le_refl _, by rw [show u = v0 by omega]; exact h2, rfl⟩
      | succ k ih =>
        intro u hu he
        by_cases hs : σ u = .go c
        · exact ⟨u, Nat.le_refl _, hs, rfl⟩
        · obtain ⟨v, g1, g2, g3⟩ := ih (u + 1) (by omega) (by omega)
          exact ⟨v, by omega, g2, by rw [g3, hkeep u hu hs]⟩
    exact this (v0 - u) u hu (by omega)
  have key : ∀ (p : Prog V) u, t ≤ u → (trace g prog mem0 before flag σ u).code c = p → ∃ v, t ≤ v ∧ (trace g prog mem0 before flag σ v).code c = .done := by
    intro p
    induction p with
    | done => intro u hu hp; exact ⟨u, hu, hp⟩
    | load a k ih =>
      intro u hu hp
      obtain ⟨v, h1, h2, h3⟩ := hnext u hu
      rw [hp] at h3
      refine ih _ (v + 1) (by omega) (?_ : _ = k (load (trace g prog mem0 before flag σ v).mem ((trace g prog mem0 before flag σ v).buf c) a))
      rw [trace, h2]
      unfold step
      simp only [if_neg hc', hpc v (by omega), h3, upd_self]
    | store a x k ih =>
      intro u hu hp
      obtain ⟨v, h1, h2, h3⟩ := hnext u hu
      rw [hp] at h3
      refine ih (v + 1) (by omega) ?_
      rw [trace, h2]
      unfold step
      simp only [if_neg hc', hpc v (by omega), h3, upd_self]
  exact key _ t (Nat.le_refl _) rfl

theorem trace_pc {c t : Nat} (h : ∀ u, t ≤ u → ctlSched g prog mem0 before flag σ u ≠ .go c ∧ ctlSched g prog mem0 before flag σ u ≠ .wake c) (u : Nat) (hu : t ≤ u) :
    (trace g prog mem0 before flag σ u).ctl.pc c = (trace g prog mem0 before flag σ t).ctl.pc c := by
  induction hu with
  | refl => rfl
  | @step u hu ih =>
    rw [trace, step_ctl, ← ih]
    obtain ⟨h1, h2⟩ := h u hu
    show (Counter.step g _ (ctlSched g prog mem0 before flag σ u)).pc c = _
    cases ha : ctlSched g prog mem0 before flag σ u with
    | go d => exact Counter.step_other g _ (fun e => h1 (by rw [ha, e])) _ (Or.inl rfl)
    | wake d => exact Counter.step_other g _ (fun e => h2 (by rw [ha, e])) _ (Or.inr rfl)

theorem buf_shrinks (s : St V) (a : Act) (c : Nat) (hr : ∀ b, s.ctl.pc c ≠ .run b) :
    (step g prog flag s a).buf c = s.buf c ∨ a = .drain c ∧ (step g prog flag s a).buf c = (s.buf c).tail := by
  cases a with
  | drain d =>
    unfold step
    simp only
    split
    · exact Or.inl rfl
    · rename_i x v l hb
      by_cases hd : c = d
      · subst hd; refine Or.inr ⟨rfl, ?_⟩; simp only [upd_self, hb]; rfl
      · refine Or.inl ?_; simp only [upd_ne _ _ hd]
  | wake d => exact Or.inl rfl
  | go d =>
    refine Or.inl ?_
    unfold step
    simp only
    split
    · rfl
    · split
      · split <;> rfl
      · split <;> rfl
      · rename_i b hb
        have hd : c ≠ d := fun e => hr b (by rw [e]; exact hb)
        split
        · rfl
        · simp only [upd_ne _ _ hd]
        · rfl
      · split <;> rfl
      · rfl

/-- A thread that keeps being scheduled while it is in its present place moves on, if the stores in its buffer keep reaching memory. -/
theorem moves {c t : Nat} {p : PC} (hc : c ≤ g.wakeup) (hp : (trace g prog mem0 before flag σ t).ctl.pc c = p) (hni : p ≠ .idle) (hna : p ≠ .asleep)
    (hgo : ∀ u, t ≤ u → (trace g prog mem0 before flag σ u).ctl.pc c = p → ∃ v, u ≤ v ∧ σ v = .go c)
    (hdr : ∀ u, (trace g prog mem0 before flag σ u).buf c ≠ [] → ∃ v, u ≤ v ∧ σ v = .drain c) :
    ∃ u, t ≤ u ∧ ctlSched g prog mem0 before flag σ u = .go c := by
  refine Classical.byContradiction fun hno => ?_
  have hc' : ¬ g.wakeup < c := by omega
  have hno' : ∀ u, t ≤ u → ctlSched g prog mem0 before flag σ u ≠ .go c := fun u hu e => hno ⟨u, hu, e⟩
  have hpc : ∀ u, t ≤ u → (trace g prog mem0 before flag σ u).ctl.pc c = p := by
    intro u hu
    induction hu with
    | refl => exact hp
    | @step u hu ih =>
      rw [trace, step_ctl]
      have h1 := hno' u hu
      show (Counter.step g _ (ctlSched g prog mem0 before flag σ u)).pc c = _
      cases ha : ctlSched g prog mem0 before flag σ u with
      | go d => rw [Counter.step_other g _ (fun e => h1 (by rw [ha, e])) _ (Or.inl rfl)]; exact ih
      | wake d =>
        by_cases hd : c = d
        · subst hd
          unfold Counter.step
          simp only
          rw [if_neg (fun hx => hna (by rw [← ih]; exact hx.1))]
          exact ih
        · rw [Counter.step_other g _ hd _ (Or.inr rfl)]; exact ih
  by_cases hrun : ∃ b, p = .run b
  · obtain ⟨b, rfl⟩ := hrun
    obtain ⟨u, hu, hd⟩ := code_ends hc hpc (fun u hu => hgo u hu (hpc u hu))
    -- once the code is at its end it stays there until the thread moves
    have hstay : ∀ v, u ≤ v → (trace g prog mem0 before flag σ v).code c = .done := by
      intro v hv
      induction hv with
      | refl => exact hd
      | @step v hv ih =>
        have hpv := hpc v (Nat.le_trans hu hv)
        rw [trace]
        generalize trace g prog mem0 before flag σ v = s at *
        cases σ v with
        | drain d => unfold step; simp only; split <;> exact ih
        | wake d => exact ih
        | go d =>
          unfold step
          simp only
          by_cases hcd : c = d
          · subst hcd
            simp only [if_neg hc', hpv, ih]
          · split
            · exact ih
            · split
              · split <;> exact ih
              · split
                · exact ih
                · simp only [upd_ne _ _ hcd]; exact ih
              · split
                · simp only [upd_ne _ _ hcd]; exact ih
                · simp only [upd_ne _ _ hcd]; exact ih
                · exact ih
              · split <;> exact ih
              · exact ih
    obtain ⟨v, hv, hσ⟩ := hgo u hu (hpc u hu)
    refine hno' v (by omega) ?_
    unfold ctlSched who
    simp only [hσ, if_neg hc', hpc v (by omega), hstay v hv]
  · have hnr : ∀ u, t ≤ u → ∀ b, (trace g prog mem0 before flag σ u).ctl.pc c ≠ .run b := by
      intro u hu b hb; rw [hpc u hu] at hb; exact hrun ⟨b, hb⟩
    have hlen : ∀ u v, t ≤ u → u ≤ v → ((trace g prog mem0 before flag σ v).buf c).length ≤ ((trace g prog mem0 before flag σ u).buf c).length := by
      intro u v hu huv
      induction huv with
      | refl => exact Nat.le_refl _
      | @step v hv ih =>
        rw [trace]
        rcases buf_shrinks (g := g) (prog := prog) (flag := flag) _ (σ v) c (hnr v (Nat.le_trans hu hv)) with h | ⟨_, h⟩
        · rw [h]; exact ih
        · rw [h, List.length_tail]; omega
    have hempty : ∀ k u, t ≤ u → ((trace g prog mem0 before flag σ u).buf c).length ≤ k → ∃ v, u ≤ v ∧ (trace g prog mem0 before flag σ v).buf c = [] := by
      intro k
      induction k with
      | zero => intro u hu hl; exact ⟨u, Nat.le_refl _, List.length_eq_zero_iff.1 (by omega)⟩
      | succ k ih =>
        intro u hu hl
        by_cases he : (trace g prog mem0 before flag σ u).buf c = []
        · exact ⟨u, Nat.le_refl _, he⟩
        · obtain ⟨v, hv, hσ⟩ := hdr u he
          have h1 := hlen u v hu hv
          have h2 : ((trace g prog mem0 before flag σ (v + 1)).buf c).length ≤ k := by
            have hst : (trace g prog mem0 before flag σ (v + 1)).buf c = ((trace g prog mem0 before flag σ v).buf c).tail := by
              rw [trace, hσ]
              unfold step
              simp only
              split
              · rename_i h; rw [h]; rfl
              · rename_i h; simp only [upd_self, h]; rfl
            rw [hst, List.length_tail]; omega
          obtain ⟨w, hw, hwe⟩ := ih (v + 1) (by omega) h2
          exact ⟨w, by omega, hwe⟩
    obtain ⟨u, hu, he⟩ := hempty _ t (Nat.le_refl _) (Nat.le_refl _)
    obtain ⟨v, hv, hσ⟩ := hgo u hu (hpc u hu)
    have hev : (trace g prog mem0 before flag σ v).buf c = [] := by
      have := hlen u v hu hv
      rw [he] at this
      exact List.length_eq_zero_iff.1 (by simpa using this)
    refine hno' v (by omega) ?_
    have hpv := hpc v (by omega)
    unfold ctlSched who
    simp only [hσ, if_neg hc', hev]
    split
    · rename_i h; rw [hpv] at h; exact absurd h hni
    · exact if_neg (fun h => h rfl)
    · rename_i b h; exact absurd h (hnr v (by omega) b)
    · exact if_neg (fun h => h rfl)
    · rfl

end

end Pnumpy.TsoCounter
