import Verif.Spec.FutexWork
import Verif.Proofs.FutexWake
import Verif.Proofs.WorkItemLive
/-
Invariants and progress of `Verif.Model.FutexWork`.
-/
namespace Pnumpy.FutexWork
open Pnumpy.Work (upd)
open Pnumpy.Futex (Worker Phase Act notified Before first_time filter_full notified_of_le)

/-- The step of the item's own model that a step corresponds to (`wakeup + 1`: none). -/
def proj (k : Cfg) (s : St) : Act → Nat
  | .caller _ => if s.phase = .work then 0 else k.it.wakeup + 1
  | .worker c =>
    if c = 0 ∨ k.workers < c then k.it.wakeup + 1 else
    match s.worker c with
    | .top => if fresh k s c = true ∧ c ≤ k.it.wakeup then c else k.it.wakeup + 1
    | .work => c
    | _ => k.it.wakeup + 1
  | .spurious _ => k.it.wakeup + 1

theorem nobody (it : Work.Item) (s : Work.St) : Work.step it s (it.wakeup + 1) = s := by simp [Work.step]

theorem step_item (k : Cfg) (s : St) (a : Act) : (step k s a).item = Work.step k.it s.item (proj k s a) := by
  cases a with
  | caller S =>
    cases hp : s.phase <;> simp only [step, proj, hp, reduceCtorEq, if_false, if_true, nobody]
    split <;> rfl
  | worker c =>
    simp only [step, proj]
    split
    · rw [nobody]
    · cases hw : s.worker c with
      | top =>
        simp only
        by_cases h1 : fresh k s c = true <;> by_cases h2 : c ≤ k.it.wakeup <;> simp [h1, h2, nobody]
      | wait f => simp [nobody]
      | asleep => simp [nobody]
      | work => rfl
  | spurious c =>
    simp only [step, proj, nobody]
    split <;> rfl

noncomputable def proj_run (k : Cfg) (w : Nat → Worker) (σ : Nat → Act) : Nat → Nat := fun u => proj k (trace k w σ u) (σ u)

theorem trace_item (k : Cfg) (w : Nat → Worker) (σ : Nat → Act) (t : Nat) :
    (trace k w σ t).item = Work.trace k.it (proj_run k w σ) t := by
  induction t with
  | zero => rfl
  | succ t ih => simp only [trace, Work.trace, step_item, ih, proj_run]

structure Inv (k : Cfg) (s : St) : Prop where
  item : Work.Inv k.it s.item
  away : ∀ c, c ≠ 0 → s.worker c ≠ .work → s.item.pc c = .idle
  inwork : ∀ c, s.worker c = .work → s.item.pc c ≠ .idle ∧ 1 ≤ c ∧ c ≤ k.workers ∧ c ≤ k.it.wakeup ∧ fresh k s c = true
  waits : ∀ c, 1 ≤ c → c ≤ k.it.wakeup → s.worker c = .wait true → Work.AllClaimed k.it s.item
  nopub : s.phase = .publish → ∀ c, s.worker c ≠ .wait true

theorem inv_start (k : Cfg) (w : Nat → Worker) (hw : Before w) : Inv k (start w) := by
  refine ⟨Work.inv_init k.it, ?_, ?_, ?_, ?_⟩
  · intro c hc _; simp [start, Work.init, hc]
  · intro c h; rcases hw c with h' | h' | h' <;> simp [start, h'] at h
  · intro c _ _ h; rcases hw c with h' | h' | h' <;> simp [start, h'] at h
  · intro _ c; rcases hw c with h' | h' | h' <;> simp [start, h']

theorem claimed_step {k : Cfg} {s : St} (a : Act) (h : Work.AllClaimed k.it s.item) : Work.AllClaimed k.it (step k s a).item := by
  rw [step_item]; exact Work.allClaimed_step h _

/-- Where a thread in the middle of the operation is after a step of its own. -/
theorem own_step {it : Work.Item} {s : Work.St} {c : Nat} (h1 : 1 ≤ c) (hc : c ≤ it.wakeup) (hr : s.pc c ≠ .ret) :
    (Work.step it s c).pc c ≠ .idle := by
  have hn : ¬ it.wakeup < c := by omega
  cases hp : s.pc c with
  | ret => exact absurd hp hr
  | own => simp only [Work.step, hn, hp, if_false, Work.tryClaim, Work.upd_self]; split <;> simp
  | check => simp only [Work.step, hn, hp, if_false, Work.upd_self]; split <;> simp
  | scan i =>
    simp only [Work.step, hn, hp, if_false]
    split
    · simp
    · split
      · simp
      · simp only [Work.tryClaim, Work.upd_self]; split <;> simp
  | wait =>
    simp only [Work.step, hn, hp, if_false]
    split
    · rw [hp]; simp
    · simp
  | idle => simp [Work.step, hn, hp]
  | bump _ _ => simp [Work.step, hn, hp]
  | run _ => simp [Work.step, hn, hp]
  | complete _ => simp [Work.step, hn, hp]
  | returned => simp [Work.step, hn, hp]

theorem inv_step {k : Cfg} (wf : Work.WF k.it) {s : St} (h : Inv k s) (a : Act) : Inv k (step k s a) := by
  have hitem : Work.Inv k.it (step k s a).item := by rw [step_item]; exact Work.inv_step wf h.item _
  have hcl : Work.AllClaimed k.it s.item → Work.AllClaimed k.it (step k s a).item := claimed_step a
  obtain ⟨a1, a2, a4, a6, a7⟩ := h
  cases a with
  | caller S =>
    cases hp : s.phase with
    | publish =>
      refine ⟨hitem, ?_, ?_, ?_, ?_⟩ <;> simp only [step, hp]
      · exact a2
      · intro c hc
        have := (a4 c hc).2.2.2.2
        simp [fresh, hp] at this
      · exact a6
      · simp
    | wake =>
      by_cases hl : Legal k s S
      · refine ⟨hitem, ?_, ?_, ?_, ?_⟩ <;> simp only [step, hp, if_pos hl]
        · intro c hc hw
          split at hw
          · rename_i hs
            exact a2 c hc (by rw [(hl.1 c hs).2.2.1]; simp)
          · exact a2 c hc hw
        · intro c hw
          split at hw
          · simp at hw
          · obtain ⟨x1, x2, x3, x4, x5⟩ := a4 c hw
            exact ⟨x1, x2, x3, x4, by simpa [fresh, hp] using x5⟩
        · intro c h1 h2 hw
          split at hw
          · simp at hw
          · exact a6 c h1 h2 hw
        · simp
      · have e : step k s (.caller S) = s := by simp only [step, hp, if_neg hl]
        rw [e]; exact ⟨a1, a2, a4, a6, a7⟩
    | work =>
      simp only [step, hp] at hitem hcl
      refine ⟨by simpa only [step, hp] using hitem, ?_, ?_, ?_, ?_⟩ <;> simp only [step, hp]
      · intro c hc hw; rw [Work.step_other _ _ hc]; exact a2 c hc hw
      · intro c hw
        obtain ⟨x1, x2, x3, x4, x5⟩ := a4 c hw
        exact ⟨by rw [Work.step_other _ _ (by omega)]; exact x1, x2, x3, x4, by simpa [fresh, hp] using x5⟩
      · intro c h1 h2 hw; exact hcl (a6 c h1 h2 hw)
      · simp
  | spurious c =>
    by_cases hc : c ≠ 0 ∧ s.worker c = .asleep
    · refine ⟨hitem, ?_, ?_, ?_, ?_⟩ <;> simp only [step, if_pos hc]
      · intro d hd hw; by_cases e : d = c
        · subst e; exact a2 d hd (by rw [hc.2]; simp)
        · simp only [upd, if_neg e] at hw; exact a2 d hd hw
      · intro d hw; by_cases e : d = c
        · subst e; simp [upd] at hw
        · simp only [upd, if_neg e] at hw; exact a4 d hw
      · intro d h1 h2 hw; by_cases e : d = c
        · subst e; simp [upd] at hw
        · simp only [upd, if_neg e] at hw; exact a6 d h1 h2 hw
      · intro hp d; by_cases e : d = c
        · subst e; simp [upd]
        · simp only [upd, if_neg e]; exact a7 hp d
    · have e : step k s (.spurious c) = s := by simp only [step, if_neg hc]
      rw [e]; exact ⟨a1, a2, a4, a6, a7⟩
  | worker c =>
    by_cases hc : c = 0 ∨ k.workers < c
    · have e : step k s (.worker c) = s := by simp only [step, if_pos hc]
      rw [e]; exact ⟨a1, a2, a4, a6, a7⟩
    have hc0 : c ≠ 0 := fun h => hc (Or.inl h)
    have hcw : c ≤ k.workers := by omega
    -- a worker that changes its own state outside `DoWork`
    have local_ : ∀ v : Worker, v ≠ .work → s.worker c ≠ .work →
        (v = .wait true → s.phase ≠ .publish ∧ (c ≤ k.it.wakeup → Work.AllClaimed k.it s.item)) →
        Inv k { s with worker := upd s.worker c v } := by
      intro v hv hnw hvt
      refine ⟨a1, ?_, ?_, ?_, ?_⟩
      · intro d hd hw; by_cases e : d = c
        · subst e; exact a2 d hd hnw
        · simp only [upd, if_neg e] at hw; exact a2 d hd hw
      · intro d hw; by_cases e : d = c
        · subst e; simp [upd, hv] at hw
        · simp only [upd, if_neg e] at hw; exact a4 d hw
      · intro d h1 h2 hw; by_cases e : d = c
        · subst e; simp only [upd, if_true] at hw; exact (hvt hw).2 h2
        · simp only [upd, if_neg e] at hw; exact a6 d h1 h2 hw
      · intro hp d; by_cases e : d = c
        · subst e; simp only [upd, if_true]
          exact fun x => (hvt x).1 hp
        · simp only [upd, if_neg e]; exact a7 hp d
    cases hw : s.worker c with
    | asleep =>
      have e : step k s (.worker c) = s := by simp only [step, if_neg hc, hw]
      rw [e]; exact ⟨a1, a2, a4, a6, a7⟩
    | wait f =>
      simp only [step, if_neg hc, hw]
      exact local_ _ (by split <;> simp) (by simp [hw]) (by split <;> simp)
    | top =>
      by_cases hf : fresh k s c = true
      · have hpub : s.phase ≠ .publish := by
          intro e; simp [fresh, e] at hf
        by_cases hcT : c ≤ k.it.wakeup
        · simp only [step, if_neg hc, hw, if_pos hf, if_pos hcT] at hitem hcl ⊢
          refine ⟨hitem, ?_, ?_, ?_, ?_⟩
          · intro d hd hwd; by_cases e : d = c
            · subst e; simp [upd] at hwd
            · simp only [upd, if_neg e] at hwd
              simp only [Work.step_other _ _ e]; exact a2 d hd hwd
          · intro d hwd; by_cases e : d = c
            · subst e
              refine ⟨?_, by omega, hcw, hcT, hf⟩
              have := a2 d hc0 (by rw [hw]; simp)
              exact own_step (by omega) hcT (by rw [this]; simp)
            · simp only [upd, if_neg e] at hwd
              obtain ⟨x1, x2, x3, x4, x5⟩ := a4 d hwd
              exact ⟨by simp only [Work.step_other _ _ e]; exact x1, x2, x3, x4, x5⟩
          · intro d h1 h2 hwd; by_cases e : d = c
            · subst e; simp [upd] at hwd
            · simp only [upd, if_neg e] at hwd; exact hcl (a6 d h1 h2 hwd)
          · intro hp; exact absurd hp hpub
        · simp only [step, if_neg hc, hw, if_pos hf, if_neg hcT]
          exact local_ _ (by simp) (by simp [hw]) (fun _ => ⟨hpub, fun h => absurd h hcT⟩)
      · simp only [step, if_neg hc, hw, if_neg hf]
        exact local_ _ (by simp) (by simp [hw]) (by simp)
    | work =>
      obtain ⟨x1, x2, x3, hcT, x5⟩ := a4 c hw
      have hpub : s.phase ≠ .publish := fun e => by simp [fresh, e] at x5
      have hnot : ¬ k.it.wakeup < c := by omega
      simp only [step, if_neg hc, hw] at hitem hcl ⊢
      refine ⟨hitem, ?_, ?_, ?_, ?_⟩
      · intro d hd hwd; by_cases e : d = c
        · subst e
          simp only [upd, if_true] at hwd
          by_cases hp : s.item.pc d = .ret
          · simp [Work.step, if_neg hnot, hp, hd]
          · simp [hp] at hwd
        · simp only [upd, if_neg e] at hwd
          simp only [Work.step_other _ _ e]; exact a2 d hd hwd
      · intro d hwd; by_cases e : d = c
        · subst e
          refine ⟨?_, x2, x3, hcT, x5⟩
          simp only [upd, if_true] at hwd
          by_cases hp : s.item.pc d = .ret
          · simp only [hp, if_true] at hwd; split at hwd <;> simp at hwd
          · exact own_step x2 hcT hp
        · simp only [upd, if_neg e] at hwd
          obtain ⟨y1, y2, y3, y4, y5⟩ := a4 d hwd
          exact ⟨by simp only [Work.step_other _ _ e]; exact y1, y2, y3, y4, y5⟩
      · intro d h1 h2 hwd; by_cases e : d = c
        · subst e
          simp only [upd, if_true] at hwd
          by_cases hp : s.item.pc d = .ret
          · exact hcl (a1.retAll d (Or.inl hp))
          · simp [hp] at hwd
        · simp only [upd, if_neg e] at hwd; exact hcl (a6 d h1 h2 hwd)
      · intro hp; exact absurd hp hpub

theorem inv_trace {k : Cfg} (wf : Work.WF k.it) {w : Nat → Worker} (hw : Before w) (σ : Nat → Act) (t : Nat) : Inv k (trace k w σ t) := by
  induction t with
  | zero => exact inv_start k w hw
  | succ t ih => exact inv_step wf ih _

theorem inv_exec {k : Cfg} (wf : Work.WF k.it) {w : Nat → Worker} (hw : Before w) (l : List Act) : Inv k (exec k w l) := by
  have : ∀ (l : List Act) (s : St), Inv k s → Inv k (l.foldl (step k) s) := by
    intro l
    induction l with
    | nil => exact fun _ h => h
    | cons a l ih => exact fun s h => ih _ (inv_step wf h a)
  exact this l _ (inv_start k w hw)

theorem exec_snoc (k : Cfg) (w : Nat → Worker) (l : List Act) (a : Act) : exec k w (l ++ [a]) = step k (exec k w l) a := by
  simp [exec, List.foldl_append]

/-- A worker that is not asleep and takes no step stays where it is. -/
theorem hold {k : Cfg} {s : St} {c : Nat} (hw : s.worker c ≠ .asleep) (a : Act) (ha : a ≠ .worker c) :
    (step k s a).worker c = s.worker c := by
  cases a with
  | caller S =>
    cases hp : s.phase <;> simp only [step, hp]
    split
    · rename_i hl
      by_cases hS : S c = true
      · exact absurd (hl.1 c hS).2.2.1 hw
      · simp [hS]
    · rfl
  | spurious d =>
    simp only [step]
    split
    · rename_i hd
      by_cases e : c = d
      · subst e; exact absurd hd.2 hw
      · simp [upd, e]
    · rfl
  | worker d =>
    have e : c ≠ d := fun e => ha (by rw [e])
    simp only [step]
    split
    · rfl
    · split <;> (try split) <;> (try split) <;> simp [upd, e]

theorem phase_worker (k : Cfg) (s : St) (d : Nat) : (step k s (.worker d)).phase = s.phase := by
  simp only [step]; split
  · rfl
  · split <;> (try split) <;> (try split) <;> rfl

theorem phase_spurious (k : Cfg) (s : St) (d : Nat) : (step k s (.spurious d)).phase = s.phase := by
  simp only [step]; split <;> rfl

theorem phase_work {k : Cfg} {s : St} (h : s.phase = .work) (a : Act) : (step k s a).phase = .work := by
  cases a with
  | caller S => simp [step, h]
  | spurious d => rw [phase_spurious]; exact h
  | worker d => rw [phase_worker]; exact h

theorem phase_work_from {k : Cfg} {w : Nat → Worker} {σ : Nat → Act} {t : Nat} (h : (trace k w σ t).phase = .work) (j : Nat) :
    (trace k w σ (t + j)).phase = .work := by
  induction j with
  | zero => exact h
  | succ j ih => exact phase_work ih _

theorem phase_other {k : Cfg} {s : St} (a : Act) (h : s.phase = .wake) : (step k s a).phase = .wake ∨ (step k s a).phase = .work := by
  cases a with
  | caller S => simp only [step, h]; split <;> simp [h]
  | spurious d => left; rw [phase_spurious]; exact h
  | worker d => left; rw [phase_worker]; exact h

theorem reaches_work {k : Cfg} {w : Nat → Worker} {σ : Nat → Act} (hf : Fair k w σ) : ∃ t, (trace k w σ t).phase = .work := by
  obtain ⟨t1, _, S1, h1, h1'⟩ := hf.caller 0
  have hw : (trace k w σ (t1 + 1)).phase = .wake ∨ (trace k w σ (t1 + 1)).phase = .work := by
    show (step k (trace k w σ t1) (σ t1)).phase = _ ∨ _
    cases hp : (trace k w σ t1).phase with
    | publish => left; simp [h1, step, hp]
    | wake => exact phase_other _ hp
    | work => exact Or.inr (phase_work hp _)
  rcases hw with hw | hw
  case inr => exact ⟨_, hw⟩
  obtain ⟨t2, h2, S2, h3, h4⟩ := hf.caller (t1 + 1)
  have hw2 : ∀ j, (trace k w σ (t1 + 1 + j)).phase = .wake ∨ (trace k w σ (t1 + 1 + j)).phase = .work := by
    intro j
    induction j with
    | zero => exact Or.inl hw
    | succ j ih =>
      rcases ih with ih | ih
      · exact phase_other _ ih
      · exact Or.inr (phase_work ih _)
  have := hw2 (t2 - (t1 + 1))
  rw [show t1 + 1 + (t2 - (t1 + 1)) = t2 by omega] at this
  rcases this with hp | hp
  · refine ⟨t2 + 1, ?_⟩
    show (step k (trace k w σ t2) (σ t2)).phase = _
    simp only [h3, step, hp, if_pos (h4 hp)]
  · exact ⟨t2, hp⟩

/-! ### Nobody sleeps while blocks are left -/

/-- While blocks are left, worker `c` does not sleep once the wake-ups are out. -/
theorem sleeps_step {k : Cfg} {s : St} {c : Nat} (hk : 3 ≤ k.it.wakeup ∨ k.workers ≤ k.it.wakeup) (h1 : 1 ≤ c)
    (hT : c ≤ k.it.wakeup) (hW : c ≤ k.workers) (h15 : c ≤ 15) (hi : Inv k s)
    (h : s.phase = .work → s.worker c = .asleep → Work.AllClaimed k.it s.item) (a : Act) :
    (step k s a).phase = .work → (step k s a).worker c = .asleep → Work.AllClaimed k.it (step k s a).item := by
  have hg : ¬ (c = 0 ∨ k.workers < c) := by omega
  have hn := notified_of_le hT h15
  intro hp' hx
  cases a with
  | caller S =>
    cases hp : s.phase with
    | publish => simp [step, hp] at hp'
    | work => exact claimed_step _ (h hp (by simpa [step, hp] using hx))
    | wake =>
      by_cases hl : Legal k s S
      · exfalso
        simp only [step, hp, if_pos hl] at hx
        split at hx
        · simp at hx
        rename_i hS
        by_cases h4 : 4 ≤ c
        · exact hS (hl.2.2 c h4 hW hx hn)
        · have hm : c ∈ sleepers0 k s := by
            simp only [sleepers0, List.mem_filter, Bool.and_eq_true, decide_eq_true_eq, beq_iff_eq]
            refine ⟨?_, hW, hx⟩
            have : c = 1 ∨ c = 2 ∨ c = 3 := by omega
            rcases this with rfl | rfl | rfl <;> simp
          have h3 : (sleepers0 k s).length ≤ 3 :=
            List.length_filter_le (fun c => decide (c ≤ k.workers) && s.worker c == .asleep) [1, 2, 3]
          have hlen : (sleepers0 k s).length ≤ min k.it.wakeup 3 := by
            rcases hk with hk | hk
            · omega
            · have : (sleepers0 k s).length ≤ k.workers := by
                by_cases w3 : 3 ≤ k.workers
                · omega
                · have n3 : (decide (3 ≤ k.workers)) = false := by simpa using w3
                  simp only [sleepers0]
                  by_cases w2 : 2 ≤ k.workers
                  · simp only [List.filter, n3, Bool.false_and]
                    split <;> split <;> simp <;> omega
                  · have n2 : (decide (2 ≤ k.workers)) = false := by simpa using w2
                    simp only [List.filter, n3, n2, Bool.false_and]
                    split <;> simp <;> omega
              omega
          have hfull := hl.2.1
          rw [Nat.min_eq_right hlen] at hfull
          exact hS (filter_full hfull c hm)
      · have e : step k s (.caller S) = s := by simp only [step, hp, if_neg hl]
        rw [e, hp] at hp'; simp at hp'
  | spurious d =>
    rw [phase_spurious] at hp'
    refine claimed_step _ (h hp' ?_)
    by_cases hd : d ≠ 0 ∧ s.worker d = .asleep
    · simp only [step, if_pos hd] at hx
      by_cases e : c = d
      · subst e; exact hd.2
      · simpa [upd, e] using hx
    · simpa only [step, if_neg hd] using hx
  | worker d =>
    rw [phase_worker] at hp'
    by_cases e : c = d
    case neg =>
      refine claimed_step _ (h hp' ?_)
      by_cases hs : s.worker c = .asleep
      · exact hs
      · rw [hold hs (.worker d) (fun e' => e (by injection e' with e'; exact e'.symm))] at hx; exact hx
    subst e
    have hf : fresh k s c = true := by simp [fresh, hp', hn]
    cases hw : s.worker c with
    | asleep => exact claimed_step _ (h hp' hw)
    | top => simp [step, hg, hw, hf, hT, upd] at hx
    | wait f =>
      cases f with
      | true => exact claimed_step _ (hi.waits c h1 hT hw)
      | false => simp [step, hg, hw, hf, upd] at hx
    | work =>
      simp only [step, if_neg hg, hw, upd, if_true] at hx
      split at hx
      · split at hx <;> simp at hx
      · simp at hx

theorem sleeps_exec {k : Cfg} (wf : Work.WF k.it) {w : Nat → Worker} (hw : Before w) {c : Nat}
    (hk : 3 ≤ k.it.wakeup ∨ k.workers ≤ k.it.wakeup)
    (h1 : 1 ≤ c) (hT : c ≤ k.it.wakeup) (hW : c ≤ k.workers) (h15 : c ≤ 15) (l : List Act) :
    (exec k w l).phase = .work → (exec k w l).worker c = .asleep → Work.AllClaimed k.it (exec k w l).item := by
  have : ∀ (l : List Act) (s : St), Inv k s → (s.phase = .work → s.worker c = .asleep → Work.AllClaimed k.it s.item) →
      ((l.foldl (step k) s).phase = .work → (l.foldl (step k) s).worker c = .asleep → Work.AllClaimed k.it (l.foldl (step k) s).item) := by
    intro l
    induction l with
    | nil => exact fun _ _ h => h
    | cons a l ih => exact fun s hi h => ih _ (inv_step wf hi a) (sleeps_step hk h1 hT hW h15 hi h a)
  exact this l _ (inv_start k w hw) (fun h => by simp [start] at h)

/-- A block that is neither executed nor claimed shows that not all are claimed. -/
theorem not_all {it : Work.Item} (wf : Work.WF it) {s : Work.St} (h : Work.Inv it s) {b : Nat} (hb : b < it.blockLast)
    (hl : b ∉ s.log) (hr : ∀ c, ¬ Work.Holds it (s.pc c) b) : ¬ Work.AllClaimed it s := by
  intro ha
  obtain ⟨ch, pos, h1, h2, h3⟩ := Work.logical_surj wf hb
  rcases h.claimedCov b ⟨ch, pos, h1, h2, Nat.lt_of_lt_of_le h2 (ha ch h1), h3⟩ with x | ⟨c, _, x⟩
  · exact hl x
  · exact hr c x

/-! ### In the end everybody sleeps -/

/-- Steps left inside the operation when no block is left. -/
def inner (n : Nat) : Work.PC → Nat
  | .ret => 0
  | .scan i => 1 + (n - i)
  | .check => n + 2
  | .own => n + 3
  | _ => 0

/-- How far worker `c` is from sleeping once no block is left. -/
def dist (k : Cfg) (s : St) (c : Nat) : Nat :=
  match s.worker c with
  | .asleep => 0
  | .wait f => if f = fresh k s c then 1 else k.it.threads + 7
  | .top => k.it.threads + 6
  | .work =>
    match s.item.pc c with
    | .complete _ => 2 * k.it.threads + 20
    | .run _ => 2 * k.it.threads + 21
    | .bump _ _ => 2 * k.it.threads + 22
    | p => (if s.did c then k.it.threads + 7 else 2) + inner k.it.threads p

theorem fresh_work {k : Cfg} {s s' : St} (h : s.phase = .work) (h' : s'.phase = .work) (c : Nat) : fresh k s' c = fresh k s c := by
  simp [fresh, h, h']

/-- A step of its own brings a worker closer to sleeping. -/
theorem dist_self {k : Cfg} {s : St} {c : Nat} (hi : Inv k s) (h1 : 1 ≤ c) (hW : c ≤ k.workers)
    (hp : s.phase = .work) (hN : Work.AllClaimed k.it s.item) (hd : s.worker c ≠ .asleep) :
    dist k (step k s (.worker c)) c < dist k s c := by
  have hg : ¬ (c = 0 ∨ k.workers < c) := by omega
  have hph : (step k s (.worker c)).phase = .work := phase_work hp _
  have hfr := fresh_work (k := k) hp hph c
  cases hw : s.worker c with
  | asleep => exact absurd hw hd
  | wait f =>
    by_cases hf : f = fresh k s c
    · have : (step k s (.worker c)).worker c = .asleep := by simp [step, hg, hw, ← hf, upd]
      simp only [dist, this, hw, if_pos hf]; omega
    · have : (step k s (.worker c)).worker c = .top := by simp [step, hg, hw, hf, upd]
      simp only [dist, this, hw, if_neg hf]; omega
  | top =>
    by_cases hf : fresh k s c = true
    · by_cases hT : c ≤ k.it.wakeup
      · have hn : ¬ k.it.wakeup < c := by omega
        have e1 : (step k s (.worker c)).worker c = .work := by simp [step, hg, hw, hf, hT, upd]
        have e2 : (step k s (.worker c)).item.pc c = .own := by
          have := hi.away c (by omega) (by rw [hw]; simp)
          simp [step, hg, hw, hf, hT, Work.step, hn, this]
        have e3 : (step k s (.worker c)).did c = false := by simp [step, hg, hw, hf, hT, upd]
        simp only [dist, e1, e2, e3, hw, inner]; simp; omega
      · have e1 : (step k s (.worker c)).worker c = .wait true := by simp [step, hg, hw, hf, hT, upd]
        simp only [dist, e1, hw, hfr, hf, if_true]; omega
    · have e1 : (step k s (.worker c)).worker c = .wait false := by simp [step, hg, hw, hf, upd]
      have hff : fresh k s c = false := by simpa using hf
      simp only [dist, e1, hw, hfr, hff, if_true]; omega
  | work =>
    obtain ⟨x1, _, _, hT, x5⟩ := hi.inwork c hw
    have hn : ¬ k.it.wakeup < c := by omega
    have ei : (step k s (.worker c)).item = Work.step k.it s.item c := by simp only [step, if_neg hg, hw]
    have hct : c < k.it.threads := by unfold Work.Item.threads; omega
    have hcl : ∀ i f, i < k.it.threads → ((Work.tryClaim k.it s.item c i f).pc c) = f := by
      intro i f hi
      have := hN i hi
      have : ¬ s.item.cur i < k.it.chanLast i := by omega
      simp [Work.tryClaim, this]
    by_cases hr : s.item.pc c = .ret
    · by_cases hdid : s.did c = true
      · have e1 : (step k s (.worker c)).worker c = .top := by simp [step, hg, hw, hr, upd, hdid]
        simp [dist, e1, hw, hr, hdid, inner]
      · have e1 : (step k s (.worker c)).worker c = .wait true := by simp [step, hg, hw, hr, upd, hdid]
        simp [dist, e1, hw, hr, hdid, inner, hfr, x5]
    have e1 : (step k s (.worker c)).worker c = .work := by simp [step, hg, hw, hr, upd]
    have e3 : (step k s (.worker c)).did c = (s.did c || counted (s.item.pc c)) := by simp [step, hg, hw, upd]
    cases hq : s.item.pc c with
    | ret => exact absurd hq hr
    | idle => exact absurd hq x1
    | wait => have := hi.item.waitMain c (Or.inl hq); omega
    | returned => have := hi.item.waitMain c (Or.inr hq); omega
    | bump ch pos =>
      have e2 : (step k s (.worker c)).item.pc c = .run (k.it.logical ch pos) := by rw [ei]; simp [Work.step, hn, hq]
      simp only [dist, e1, e2, hw, hq]; omega
    | run b =>
      have e2 : (step k s (.worker c)).item.pc c = .complete b := by rw [ei]; simp [Work.step, hn, hq]
      simp only [dist, e1, e2, hw, hq]; omega
    | complete b =>
      have e2 : (step k s (.worker c)).item.pc c = .own := by rw [ei]; simp [Work.step, hn, hq]
      simp only [dist, e1, e2, hw, hq, inner]; split <;> omega
    | own =>
      have e2 : (step k s (.worker c)).item.pc c = .check := by
        rw [ei]
        have : Work.step k.it s.item c = Work.tryClaim k.it s.item c c .check := by simp [Work.step, hn, hq]
        rw [this, hcl c _ hct]
      rw [hq] at e3; simp only [counted, Bool.or_false] at e3
      simp only [dist, e1, e2, e3, hw, hq, inner]; omega
    | check =>
      rw [hq] at e3; simp only [counted, Bool.or_false] at e3
      have e2 : (step k s (.worker c)).item.pc c = .ret ∨ (step k s (.worker c)).item.pc c = .scan 0 := by
        rw [ei]; simp only [Work.step, hn, hq, if_false, Work.upd_self]; split <;> simp
      rcases e2 with e2 | e2 <;> simp only [dist, e1, e2, e3, hw, hq, inner] <;> omega
    | scan i =>
      rw [hq] at e3; simp only [counted, Bool.or_false] at e3
      by_cases g1 : k.it.wakeup < i
      · have e2 : (step k s (.worker c)).item.pc c = .ret := by rw [ei]; simp [Work.step, hn, hq, g1]
        simp only [dist, e1, e2, e3, hw, hq, inner]; omega
      · have hit : i < k.it.threads := by unfold Work.Item.threads; omega
        have e2 : (step k s (.worker c)).item.pc c = .scan (i + 1) := by
          rw [ei]
          by_cases g2 : i = c
          · simp [Work.step, hn, hq, g2]
          · have : Work.step k.it s.item c = Work.tryClaim k.it s.item c i (.scan (i + 1)) := by simp [Work.step, hn, hq, g1, g2]
            rw [this, hcl i _ hit]
        simp only [dist, e1, e2, e3, hw, hq, inner]; omega

/-- Nobody else changes how far a worker is from sleeping. -/
theorem dist_other {k : Cfg} {s : St} {c : Nat} (h1 : 1 ≤ c) (hp : s.phase = .work) (a : Act) (ha : a ≠ .worker c)
    (hs : a ≠ .spurious c) : (step k s a).worker c = s.worker c ∧ dist k (step k s a) c = dist k s c := by
  have hfr := fresh_work (k := k) hp (phase_work (k := k) hp a) c
  have e1 : (step k s a).worker c = s.worker c ∧ (step k s a).did c = s.did c ∧ (step k s a).item.pc c = s.item.pc c := by
    cases a with
    | caller S =>
      simp only [step, hp]
      exact ⟨trivial, trivial, Work.step_other _ _ (by omega)⟩
    | spurious d =>
      have e : c ≠ d := fun e => hs (by rw [e])
      simp only [step]; split <;> simp [upd, e]
    | worker d =>
      have e : c ≠ d := fun e => ha (by rw [e])
      simp only [step]
      split
      · exact ⟨rfl, rfl, rfl⟩
      · split <;> (try split) <;> (try split) <;> simp [upd, e, Work.step_other _ _ e]
  exact ⟨e1.1, by simp only [dist, e1.1, e1.2.1, e1.2.2, hfr]⟩

theorem sleeps_stays {k : Cfg} {w : Nat → Worker} {σ : Nat → Act} {c t : Nat} (h1 : 1 ≤ c) (hp : (trace k w σ t).phase = .work)
    (hs : ∀ u, t ≤ u → σ u ≠ .spurious c) (ha : (trace k w σ t).worker c = .asleep) :
    ∀ u, t ≤ u → (trace k w σ u).worker c = .asleep := by
  intro u hu
  obtain ⟨j, rfl⟩ : ∃ j, u = t + j := ⟨u - t, by omega⟩
  clear hu
  induction j with
  | zero => exact ha
  | succ j ih =>
    show (step k (trace k w σ (t + j)) (σ (t + j))).worker c = _
    by_cases hw : σ (t + j) = .worker c
    · rw [hw]; simp only [step]
      split
      · exact ih
      · rw [ih]; exact ih
    · rw [(dist_other h1 (phase_work_from hp j) _ hw (hs _ (by omega))).1]; exact ih

theorem claimed_from {k : Cfg} {w : Nat → Worker} {σ : Nat → Act} {t0 : Nat} (h : Work.AllClaimed k.it (trace k w σ t0).item)
    (t : Nat) (ht : t0 ≤ t) : Work.AllClaimed k.it (trace k w σ t).item := by
  obtain ⟨j, rfl⟩ : ∃ j, t = t0 + j := ⟨t - t0, by omega⟩
  clear ht
  induction j with
  | zero => exact h
  | succ j ih => exact claimed_step _ ih

theorem worker_sleeps {k : Cfg} (wf : Work.WF k.it) {w : Nat → Worker} (hw : Before w) {σ : Nat → Act} (hf : Fair k w σ) {c : Nat}
    (h1 : 1 ≤ c) (hW : c ≤ k.workers) {t0 : Nat} (hp : (trace k w σ t0).phase = .work)
    (hN : Work.AllClaimed k.it (trace k w σ t0).item)
    (hs : ∀ u, t0 ≤ u → σ u ≠ .spurious c) : ∃ t, t0 ≤ t ∧ (trace k w σ t).worker c = .asleep := by
  have hN' := claimed_from hN
  have hp' : ∀ t, t0 ≤ t → (trace k w σ t).phase = .work := by
    intro t ht
    have := phase_work_from hp (t - t0)
    rwa [show t0 + (t - t0) = t by omega] at this
  have key : ∀ n t, t0 ≤ t → dist k (trace k w σ t) c ≤ n → ∃ t', t0 ≤ t' ∧ (trace k w σ t').worker c = .asleep := by
    intro n
    induction n with
    | zero =>
      intro t ht hd
      refine ⟨t, ht, ?_⟩
      simp only [dist] at hd
      cases hx : (trace k w σ t).worker c with
      | asleep => rfl
      | top => simp [hx] at hd
      | wait f => simp only [hx] at hd; split at hd <;> omega
      | work =>
        simp only [hx] at hd
        split at hd
        · omega
        · omega
        · omega
        · split at hd <;> omega
    | succ n ih =>
      intro t ht hd
      by_cases hx : (trace k w σ t).worker c = .asleep
      · exact ⟨t, ht, hx⟩
      obtain ⟨t', a, b, d⟩ := first_time (P := fun u => σ u = .worker c) (hf.worker c h1 hW t)
      have hsame : ∀ j, t + j ≤ t' → (trace k w σ (t + j)).worker c = (trace k w σ t).worker c ∧
          dist k (trace k w σ (t + j)) c = dist k (trace k w σ t) c := by
        intro j
        induction j with
        | zero => exact fun _ => ⟨rfl, rfl⟩
        | succ j ihj =>
          intro hj
          have e := ihj (by omega)
          have f := dist_other (k := k) h1 (hp' (t + j) (by omega)) (σ (t + j)) (d (t + j) (by omega) (by omega)) (hs _ (by omega))
          exact ⟨f.1.trans e.1, f.2.trans e.2⟩
      have e := hsame (t' - t) (by omega)
      rw [show t + (t' - t) = t' by omega] at e
      refine ih (t' + 1) (by omega) ?_
      have lt := dist_self (inv_trace wf hw σ t') h1 hW (hp' t' (by omega)) (hN' t' (by omega))
        (by rw [e.1]; exact hx)
      have : dist k (trace k w σ (t' + 1)) c < dist k (trace k w σ t') c := by
        show dist k (step k (trace k w σ t') (σ t')) c < _
        rw [b]; exact lt
      omega
  exact key _ t0 (Nat.le_refl _) (Nat.le_refl _)

theorem all_sleep {k : Cfg} (wf : Work.WF k.it) {w : Nat → Worker} (hw : Before w) {σ : Nat → Act} (hf : Fair k w σ)
    {t0 : Nat} (hp : (trace k w σ t0).phase = .work) (hN : Work.AllClaimed k.it (trace k w σ t0).item)
    (hs : ∀ u c, t0 ≤ u → σ u ≠ .spurious c) :
    ∃ t, ∀ u, t ≤ u → ∀ c, 1 ≤ c → c ≤ k.workers → (trace k w σ u).worker c = .asleep := by
  have key : ∀ m, m ≤ k.workers → ∃ t, t0 ≤ t ∧ ∀ u, t ≤ u → ∀ c, 1 ≤ c → c ≤ m → (trace k w σ u).worker c = .asleep := by
    intro m
    induction m with
    | zero => exact fun _ => ⟨t0, Nat.le_refl _, fun u _ c a b => by omega⟩
    | succ m ih =>
      intro hm
      obtain ⟨t, ht, h⟩ := ih (by omega)
      obtain ⟨t', ht', h'⟩ := worker_sleeps wf hw hf (c := m + 1) (by omega) hm hp hN (fun u hu => hs u _ hu)
      have hp' : (trace k w σ t').phase = .work := by
        have := phase_work_from hp (t' - t0)
        rwa [show t0 + (t' - t0) = t' by omega] at this
      refine ⟨max t t', by omega, fun u hu c a b => ?_⟩
      by_cases e : c = m + 1
      · subst e; exact sleeps_stays (by omega) hp' (fun v hv => hs v _ (by omega)) h' u (by omega)
      · exact h u (by omega) c a (by omega)
  obtain ⟨t, _, h⟩ := key k.workers (Nat.le_refl _)
  exact ⟨t, h⟩

theorem caller_often {k : Cfg} {w : Nat → Worker} {σ : Nat → Act} (hf : Fair k w σ) (t : Nat) :
    ∃ t', t ≤ t' ∧ proj_run k w σ t' = 0 := by
  obtain ⟨t0, h0⟩ := reaches_work hf
  obtain ⟨t', h1, S, h2, _⟩ := hf.caller (max t t0)
  refine ⟨t', by omega, ?_⟩
  have := phase_work_from h0 (t' - t0)
  rw [show t0 + (t' - t0) = t' by omega] at this
  simp only [proj_run, h2, proj, this, if_true]

theorem work_fair {k : Cfg} (wf : Work.WF k.it) {w : Nat → Worker} (hw : Before w) {σ : Nat → Act} (hf : Fair k w σ) :
    Work.Fair k.it (proj_run k w σ) := by
  refine ⟨caller_often hf, ?_⟩
  intro t c hb
  by_cases hc : c = 0
  · subst hc; exact caller_often hf t
  have hinv := inv_trace wf hw σ t
  have hb' : ((trace k w σ t).item.pc c).busy = true := by rw [trace_item]; exact hb
  have hwk : (trace k w σ t).worker c = .work := by
    refine Classical.byContradiction fun h => ?_
    rw [hinv.away c hc h] at hb'; simp [Work.PC.busy] at hb'
  have hcw := (hinv.inwork c hwk).2.2.1
  obtain ⟨t', h1, h2, h3⟩ := first_time (P := fun u => σ u = .worker c) (hf.worker c (by omega) hcw t)
  have hh : ∀ j, t + j ≤ t' → (trace k w σ (t + j)).worker c = .work := by
    intro j
    induction j with
    | zero => exact fun _ => hwk
    | succ j ih =>
      intro hj
      show (step k (trace k w σ (t + j)) (σ (t + j))).worker c = _
      have e := ih (by omega)
      rw [hold (by rw [e]; simp) _ (h3 (t + j) (by omega) (by omega)), e]
  have e := hh (t' - t) (by omega)
  rw [show t + (t' - t) = t' by omega] at e
  have hg : ¬ (c = 0 ∨ k.workers < c) := by omega
  exact ⟨t', h1, by simp only [proj_run, h2, proj, if_neg hg, e]⟩

theorem returned_stays {k : Cfg} {w : Nat → Worker} {σ : Nat → Act} {t : Nat} (h : (trace k w σ t).item.pc 0 = .returned) (u : Nat)
    (hu : t ≤ u) : (trace k w σ u).item.pc 0 = .returned := by
  obtain ⟨j, rfl⟩ : ∃ j, u = t + j := ⟨u - t, by omega⟩
  clear hu
  induction j with
  | zero => exact h
  | succ j ih =>
    show (step k (trace k w σ (t + j)) (σ (t + j))).item.pc 0 = _
    rw [step_item]
    by_cases e : proj k (trace k w σ (t + j)) (σ (t + j)) = 0
    · rw [e]; simp [Work.step, ih]
    · rw [Work.step_other _ _ (Ne.symm e)]; exact ih

end Pnumpy.FutexWork
