import Verif.Spec.OtherOs
import Verif.Proofs.Futex
/-
Invariants and progress of `Verif.Model.OtherOs`.
-/
namespace Pnumpy.OtherOs
open Pnumpy.Work (upd)
open Pnumpy.Futex (Worker Before out first_time wake0)

theorem pools_pos (T : Nat) : 1 ≤ pools T := by unfold pools; omega

/-- The step of the item's own model that a step corresponds to (`.wake 0`: none). -/
def proj (k : Cfg) (s : St) : Act → Counter.Act
  | .caller => if s.phase < 2 * pools k.g.wakeup then .wake 0 else .go 0
  | .worker c =>
    if c = 0 ∨ k.workers < c then .wake 0 else
    match s.worker c with
    | .top => if fresh s c = true ∧ c ≤ k.g.wakeup then .wake c else .wake 0
    | .work => .go c
    | _ => .wake 0
  | .spurious _ => .wake 0

theorem step_item (k : Cfg) (s : St) (a : Act) : (step k s a).item = Counter.step k.g s.item (proj k s a) := by
  cases a with
  | caller =>
    simp only [step, proj]
    split
    · rw [wake0]; split <;> rfl
    · rfl
  | worker c =>
    simp only [step, proj]
    split
    · rw [wake0]
    · cases hw : s.worker c with
      | top =>
        simp only
        by_cases h1 : fresh s c = true <;> by_cases h2 : c ≤ k.g.wakeup <;> simp [h1, h2, wake0]
      | wait f => simp [wake0]
      | asleep => simp [wake0]
      | work => rfl
  | spurious c =>
    simp only [step, proj, wake0]
    split <;> rfl

theorem trace_item (k : Cfg) (w : Nat → Worker) (σ : Nat → Act) (t : Nat) :
    (trace k w σ t).item = Counter.trace k.g (fun u => proj k (trace k w σ u) (σ u)) t := by
  induction t with
  | zero => rfl
  | succ t ih => simp only [trace, Counter.trace, step_item, ih]

structure Inv (k : Cfg) (s : St) : Prop where
  item : Counter.Inv k.g s.item
  away : ∀ c, c ≠ 0 → s.worker c ≠ .work → out (s.item.pc c)
  inwork : ∀ c, s.worker c = .work → 1 ≤ c ∧ c ≤ k.workers ∧ c ≤ k.g.wakeup
  early : s.phase < 2 * pools k.g.wakeup → s.item.pc 0 = .fetch false
  waits : ∀ c, 1 ≤ c → c ≤ k.g.wakeup → c ≤ k.workers → s.worker c = .wait true →
    s.item.zeroBy = some c ∨ k.g.N ≤ s.item.next

theorem inv_start (k : Cfg) (w : Nat → Worker) (hw : Before w) : Inv k (start w) := by
  refine ⟨Counter.inv_init k.g, ?_, ?_, fun _ => rfl, ?_⟩
  · intro c hc _; simp [start, Counter.init, hc, out]
  · intro c h; rcases hw c with h' | h' | h' <;> simp [start, h'] at h
  · intro c _ _ _ h; rcases hw c with h' | h' | h' <;> simp [start, h'] at h

private theorem counter_other (g : Counter.Cfg) (s : Counter.St) {c d : Nat} (h : d ≠ c) :
    (Counter.step g s (.go c)).pc d = s.pc d := Counter.step_other g s h _ (Or.inl rfl)

private theorem counter_wake_other (g : Counter.Cfg) (s : Counter.St) {c d : Nat} (h : d ≠ c) :
    (Counter.step g s (.wake c)).pc d = s.pc d := Counter.step_other g s h _ (Or.inr rfl)

private theorem keep {g : Counter.Cfg} {s : Counter.St} (h : Counter.Inv g s) (a : Counter.Act) {c : Nat}
    (hc : s.zeroBy = some c ∨ g.N ≤ s.next) :
    (Counter.step g s a).zeroBy = some c ∨ g.N ≤ (Counter.step g s a).next := by
  rcases hc with hc | hc
  · exact Or.inl (Counter.zeroBy_stable h a hc)
  · exact Or.inr (Nat.le_trans hc (Counter.next_mono g s a))

theorem inv_step {k : Cfg} {s : St} (h : Inv k s) (a : Act) : Inv k (step k s a) := by
  have hitem : Counter.Inv k.g (step k s a).item := by rw [step_item]; exact Counter.inv_step h.item _
  obtain ⟨a1, a2, a4, a5, a6⟩ := h
  cases a with
  | caller =>
    by_cases hp : s.phase < 2 * pools k.g.wakeup
    · by_cases he : s.phase % 2 = 0
      · refine ⟨hitem, ?_, ?_, ?_, ?_⟩ <;> simp only [step, if_pos hp, if_pos he]
        · exact a2
        · exact a4
        · intro _; exact a5 hp
        · exact a6
      · have wk : ∀ c, woken k s c = true → s.worker c = .asleep := by
          intro c hc; simp only [woken, Bool.and_eq_true, beq_iff_eq] at hc; exact hc.1
        refine ⟨hitem, ?_, ?_, ?_, ?_⟩ <;> simp only [step, if_pos hp, if_neg he]
        · intro c hc hw
          split at hw
          · rename_i hs; exact a2 c hc (by rw [wk c hs]; simp)
          · exact a2 c hc hw
        · intro c hw
          split at hw
          · simp at hw
          · exact a4 c hw
        · intro _; exact a5 hp
        · intro c h1 h2 h3 hw
          split at hw
          · simp at hw
          · exact a6 c h1 h2 h3 hw
    · refine ⟨hitem, ?_, ?_, ?_, ?_⟩ <;> simp only [step, if_neg hp]
      · intro c hc hw; rw [counter_other _ _ hc]; exact a2 c hc hw
      · exact a4
      · intro h; exact absurd h hp
      · intro c h1 h2 h3 hw; exact keep a1 _ (a6 c h1 h2 h3 hw)
  | spurious c =>
    by_cases hc : c ≠ 0 ∧ s.worker c = .asleep
    · refine ⟨hitem, ?_, ?_, ?_, ?_⟩ <;> simp only [step, if_pos hc]
      · intro d hd hw; by_cases e : d = c
        · subst e; exact a2 d hd (by rw [hc.2]; simp)
        · simp only [upd, if_neg e] at hw; exact a2 d hd hw
      · intro d hw; by_cases e : d = c
        · subst e; simp [upd] at hw
        · simp only [upd, if_neg e] at hw; exact a4 d hw
      · exact a5
      · intro d h1 h2 h3 hw; by_cases e : d = c
        · subst e; simp [upd] at hw
        · simp only [upd, if_neg e] at hw; exact a6 d h1 h2 h3 hw
    · have e : step k s (.spurious c) = s := by simp only [step, if_neg hc]
      rw [e]; exact ⟨a1, a2, a4, a5, a6⟩
  | worker c =>
    by_cases hc : c = 0 ∨ k.workers < c
    · have e : step k s (.worker c) = s := by simp only [step, if_pos hc]
      rw [e]; exact ⟨a1, a2, a4, a5, a6⟩
    have hc0 : c ≠ 0 := fun h => hc (Or.inl h)
    have hcw : c ≤ k.workers := by omega
    -- a worker that changes its own state outside `DoWork`
    have local_ : ∀ v : Worker, v ≠ .work → s.worker c ≠ .work →
        (v = .wait true → c ≤ k.g.wakeup → s.item.zeroBy = some c ∨ k.g.N ≤ s.item.next) →
        Inv k { s with worker := upd s.worker c v } := by
      intro v hv hnw hvt
      refine ⟨a1, ?_, ?_, a5, ?_⟩
      · intro d hd hw; by_cases e : d = c
        · subst e; exact a2 d hd hnw
        · simp only [upd, if_neg e] at hw; exact a2 d hd hw
      · intro d hw; by_cases e : d = c
        · subst e; simp [upd, hv] at hw
        · simp only [upd, if_neg e] at hw; exact a4 d hw
      · intro d h1 h2 h3 hw; by_cases e : d = c
        · subst e; simp only [upd, if_true] at hw; exact hvt hw h2
        · simp only [upd, if_neg e] at hw; exact a6 d h1 h2 h3 hw
    cases hw : s.worker c with
    | asleep =>
      have e : step k s (.worker c) = s := by simp only [step, if_neg hc, hw]
      rw [e]; exact ⟨a1, a2, a4, a5, a6⟩
    | wait f =>
      simp only [step, if_neg hc, hw]
      have hg : goSleep k s c f = .asleep ∨ goSleep k s c f = .top := by
        unfold goSleep; split
        · split <;> simp
        · simp
      exact local_ _ (by rcases hg with h | h <;> simp [h]) (by simp [hw]) (by rcases hg with h | h <;> simp [h])
    | top =>
      by_cases hf : fresh s c = true
      · by_cases hcT : c ≤ k.g.wakeup
        · simp only [step, if_neg hc, hw, if_pos hf, if_pos hcT] at hitem ⊢
          refine ⟨hitem, ?_, ?_, ?_, ?_⟩
          · intro d hd hwd; by_cases e : d = c
            · subst e; simp [upd] at hwd
            · simp only [upd, if_neg e] at hwd
              simp only [counter_wake_other _ _ e]; exact a2 d hd hwd
          · intro d hwd; by_cases e : d = c
            · subst e; exact ⟨by omega, hcw, hcT⟩
            · simp only [upd, if_neg e] at hwd; exact a4 d hwd
          · intro hp
            simp only [counter_wake_other _ _ (Ne.symm hc0)]; exact a5 hp
          · intro d h1 h2 h3 hwd; by_cases e : d = c
            · subst e; simp [upd] at hwd
            · simp only [upd, if_neg e] at hwd; exact keep a1 _ (a6 d h1 h2 h3 hwd)
        · simp only [step, if_neg hc, hw, if_pos hf, if_neg hcT]
          exact local_ _ (by simp) (by simp [hw]) (fun _ h => absurd h hcT)
      · simp only [step, if_neg hc, hw, if_neg hf]
        exact local_ _ (by simp) (by simp [hw]) (by simp)
    | work =>
      have hcT := (a4 c hw).2.2
      have hnot : ¬ k.g.wakeup < c := by omega
      simp only [step, if_neg hc, hw] at hitem ⊢
      refine ⟨hitem, ?_, ?_, ?_, ?_⟩
      · intro d hd hwd; by_cases e : d = c
        · subst e
          simp only [upd, if_true] at hwd
          cases hp : s.item.pc d with
          | ret did =>
            simp only [Counter.step, if_neg hnot, hp, upd, if_true, if_neg hd]
            cases did <;> simp [out]
          | _ => simp [hp] at hwd
        · simp only [upd, if_neg e] at hwd
          simp only [counter_other _ _ e]; exact a2 d hd hwd
      · intro d hwd; by_cases e : d = c
        · subst e; exact ⟨by omega, hcw, hcT⟩
        · simp only [upd, if_neg e] at hwd; exact a4 d hwd
      · intro hp
        simp only [counter_other _ _ (Ne.symm hc0)]; exact a5 hp
      · intro d h1 h2 h3 hwd; by_cases e : d = c
        · subst e
          simp only [upd, if_true] at hwd
          cases hp : s.item.pc d with
          | ret did => exact keep a1 _ (a1.retWhy d (Or.inr (Or.inr (Or.inr ⟨did, hp⟩))) |>.imp And.right id)
          | _ => simp [hp] at hwd
        · simp only [upd, if_neg e] at hwd; exact keep a1 _ (a6 d h1 h2 h3 hwd)

theorem inv_trace (k : Cfg) (w : Nat → Worker) (hw : Before w) (σ : Nat → Act) (t : Nat) : Inv k (trace k w σ t) := by
  induction t with
  | zero => exact inv_start k w hw
  | succ t ih => exact inv_step ih _

/-- A worker in this state will come to look for work (pool index already written). -/
def Coming (k : Cfg) : Worker → Prop
  | .top => True
  | .work => True
  | .wait f => (k.os = .windows ∧ f = false) ∨ k.os = .windows7
  | .asleep => k.os = .windows7

/-- Somebody will make sure that the tickets are drawn. -/
def Helped (k : Cfg) (s : St) : Prop :=
  k.g.N ≤ s.item.next ∨ (∃ c, 1 ≤ c ∧ s.item.zeroBy = some c) ∨
    ∃ c, 1 ≤ c ∧ c ≤ 3 ∧ c ≤ k.g.wakeup ∧ c ≤ k.workers ∧ Coming k (s.worker c)

theorem fresh_small {s : St} {c : Nat} (hp : 1 ≤ s.phase) (hc : c ≤ 3) : fresh s c = true := by
  simp only [fresh, decide_eq_true_eq]; omega

theorem phase_other (k : Cfg) (s : St) (a : Act) (h : a ≠ .caller) : (step k s a).phase = s.phase := by
  cases a with
  | caller => exact absurd rfl h
  | spurious d => simp only [step]; split <;> rfl
  | worker d =>
    simp only [step]; split
    · rfl
    · split <;> (try split) <;> (try split) <;> rfl

theorem phase_mono (k : Cfg) (s : St) (a : Act) : s.phase ≤ (step k s a).phase := by
  by_cases h : a = .caller
  · subst h; simp only [step]; split
    · split <;> simp
    · exact Nat.le_refl _
  · rw [phase_other k s a h]; exact Nat.le_refl _

/-- Helped stays, once pool 0 is woken. -/
theorem helped_step {k : Cfg} {s : St} (h : Inv k s) (hp : 2 ≤ s.phase) (a : Act) (hs : Helped k s) : Helped k (step k s a) := by
  rcases hs with hd | ⟨c, hc, hz⟩ | ⟨c, h1, h3, hT', hW', hn⟩
  · exact Or.inl (by rw [step_item]; exact Nat.le_trans hd (Counter.next_mono _ _ _))
  · exact Or.inr (Or.inl ⟨c, hc, by rw [step_item]; exact Counter.zeroBy_stable h.item _ hz⟩)
  · have this_ : ∀ v, (step k s a).worker c = v → Coming k v → Helped k (step k s a) := by
      intro v e hv; exact Or.inr (Or.inr ⟨c, h1, h3, hT', hW', by rw [e]; exact hv⟩)
    have hf : fresh s c = true := fresh_small (by omega) h3
    cases a with
    | caller =>
      by_cases hq : s.phase < 2 * pools k.g.wakeup
      · by_cases he : s.phase % 2 = 0
        · exact this_ _ (by simp [step, hq, he]) hn
        · by_cases hw : woken k s c = true
          · exact this_ .top (by simp [step, hq, he, hw]) trivial
          · exact this_ _ (by simp [step, hq, he, hw]) hn
      · exact this_ _ (by simp [step, hq]) hn
    | spurious d =>
      by_cases hd : d ≠ 0 ∧ s.worker d = .asleep
      · by_cases e : c = d
        · subst e; exact this_ .top (by simp [step, hd, upd]) trivial
        · exact this_ _ (by simp [step, hd, upd, e]) hn
      · exact this_ _ (by simp only [step, if_neg hd]) hn
    | worker d =>
      by_cases e : c = d
      · subst e
        have hg : ¬ (c = 0 ∨ k.workers < c) := by omega
        cases hw : s.worker c with
        | top => exact this_ .work (by simp [step, hg, hw, hf, hT', upd]) trivial
        | asleep => exact this_ .asleep (by simp [step, hg, hw]) (by rw [hw] at hn; exact hn)
        | wait f =>
          rw [hw] at hn
          rcases hn with ⟨ho, rfl⟩ | ho
          · exact this_ .top (by simp [step, hg, hw, goSleep, ho, hf, upd]) trivial
          · exact this_ .asleep (by simp [step, hg, hw, goSleep, ho, upd]) ho
        | work =>
          cases hx : s.item.pc c with
          | ret did =>
            rcases h.item.retWhy c (Or.inr (Or.inr (Or.inr ⟨did, hx⟩))) with y | y
            · exact Or.inr (Or.inl ⟨c, h1, by rw [step_item]; exact Counter.zeroBy_stable h.item _ y.2⟩)
            · exact Or.inl (by rw [step_item]; exact Nat.le_trans y (Counter.next_mono _ _ _))
          | _ => exact this_ .work (by simp [step, hg, hw, hx, upd]) trivial
      · refine this_ _ ?_ hn
        simp only [step]
        split
        · rfl
        · split <;> (try split) <;> (try split) <;> simp [upd, e]

/-- The wake-up of pool 0 helps, unless everybody concerned is on the way to sleep on macOS. -/
theorem helped_wake {k : Cfg} {s : St} (h : Inv k s) (hT : 1 ≤ k.g.wakeup) (hW : 1 ≤ k.workers) (hp : s.phase = 1)
    (hm : k.os = .mac → ∃ c, 1 ≤ c ∧ c ≤ 3 ∧ c ≤ k.g.wakeup ∧ c ≤ k.workers ∧ s.worker c ≠ .wait false) :
    Helped k (step k s .caller) := by
  have hpools := pools_pos k.g.wakeup
  have hs : step k s .caller = { s with phase := s.phase + 1, worker := fun c => if woken k s c then .top else s.worker c } := by
    simp only [step]; rw [if_pos (by omega), if_neg (by omega)]
  rw [hs]
  have main : ∀ c, 1 ≤ c → c ≤ 3 → c ≤ k.g.wakeup → c ≤ k.workers → (k.os = .mac → s.worker c ≠ .wait false) →
      Helped k { s with phase := s.phase + 1, worker := fun c => if woken k s c then .top else s.worker c } := by
    intro c h1 h3 hT' hW' hmac
    have mk : Coming k (if woken k s c then .top else s.worker c) →
        Helped k { s with phase := s.phase + 1, worker := fun c => if woken k s c then .top else s.worker c } :=
      fun hv => Or.inr (Or.inr ⟨c, h1, h3, hT', hW', hv⟩)
    cases hw : s.worker c with
    | top => apply mk; simp [woken, hw, Coming]
    | work => apply mk; simp [woken, hw, Coming]
    | asleep =>
      apply mk
      have e : c / 4 = s.phase / 2 := by omega
      cases ho : k.os <;> simp [woken, hw, ho, Coming, e]
    | wait f =>
      cases f with
      | true =>
        rcases h.waits c h1 hT' hW' hw with hx | hx
        · exact Or.inr (Or.inl ⟨c, h1, hx⟩)
        · exact Or.inl hx
      | false =>
        apply mk
        cases ho : k.os with
        | mac => exact absurd hw (hmac ho)
        | windows => simp [woken, hw, Coming, ho]
        | windows7 => simp [woken, hw, Coming, ho]
  by_cases ho : k.os = .mac
  · obtain ⟨c, h1, h3, a, b, d⟩ := hm ho
    exact main c h1 h3 a b (fun _ => d)
  · exact main 1 (by omega) (by omega) hT hW (fun h => absurd h ho)

/-- A worker that is not asleep and takes no step stays where it is. -/
theorem hold {k : Cfg} {s : St} {c : Nat} (hw : s.worker c ≠ .asleep) (a : Act) (ha : a ≠ .worker c) :
    (step k s a).worker c = s.worker c := by
  cases a with
  | caller =>
    simp only [step]
    split
    · split
      · rfl
      · have : woken k s c = false := by simp [woken, hw]
        simp [this]
    · rfl
  | spurious d =>
    simp only [step]
    split
    · rename_i hd
      by_cases e : c = d
      · subst e; exact absurd hd.2 hw
      · simp [upd, e]
    · rfl
  | worker d =>
    have e : c ≠ d := fun e => ha (by rw [e])
    simp only [step]
    split
    · rfl
    · split <;> (try split) <;> (try split) <;> simp [upd, e]

theorem hold_until {k : Cfg} {w : Nat → Worker} {σ : Nat → Act} {c t : Nat} (hw : (trace k w σ t).worker c ≠ .asleep) (j : Nat)
    (hn : ∀ u, t ≤ u → u < t + j → σ u ≠ .worker c) : (trace k w σ (t + j)).worker c = (trace k w σ t).worker c := by
  induction j with
  | zero => rfl
  | succ j ih =>
    have e := ih fun u h1 h2 => hn u h1 (by omega)
    show (step k (trace k w σ (t + j)) (σ (t + j))).worker c = _
    rw [hold (by rw [e]; exact hw) _ (hn (t + j) (by omega) (by omega)), e]

theorem phase_trace_mono {k : Cfg} {w : Nat → Worker} {σ : Nat → Act} (t j : Nat) :
    (trace k w σ t).phase ≤ (trace k w σ (t + j)).phase := by
  induction j with
  | zero => exact Nat.le_refl _
  | succ j ih => exact Nat.le_trans ih (phase_mono _ _ _)

theorem phase_from {k : Cfg} {w : Nat → Worker} {σ : Nat → Act} {t t' n : Nat} (h : n ≤ (trace k w σ t).phase) (ht : t ≤ t') :
    n ≤ (trace k w σ t').phase := by
  have := phase_trace_mono (k := k) (w := w) (σ := σ) t (t' - t)
  rw [show t + (t' - t) = t' by omega] at this
  omega

theorem reaches {k : Cfg} {w : Nat → Worker} {σ : Nat → Act} (hf : Fair k w σ) (n : Nat) (hn : n ≤ 2 * pools k.g.wakeup) :
    ∃ t, n ≤ (trace k w σ t).phase := by
  induction n with
  | zero => exact ⟨0, Nat.zero_le _⟩
  | succ n ih =>
    obtain ⟨t, ht⟩ := ih (by omega)
    obtain ⟨t', h1, h2⟩ := hf.caller t
    have h := phase_from ht h1
    by_cases hd : n + 1 ≤ (trace k w σ t').phase
    · exact ⟨t', hd⟩
    · refine ⟨t' + 1, ?_⟩
      show n + 1 ≤ (step k (trace k w σ t') (σ t')).phase
      simp only [h2, step]
      rw [if_pos (by omega)]
      split <;> simp only <;> omega

/-- The projected run. -/
def proj_run (k : Cfg) (w : Nat → Worker) (σ : Nat → Act) : Nat → Counter.Act := fun u => proj k (trace k w σ u) (σ u)

theorem go0_often {k : Cfg} {w : Nat → Worker} {σ : Nat → Act} (hf : Fair k w σ) (t : Nat) :
    ∃ t', t ≤ t' ∧ proj_run k w σ t' = .go 0 := by
  obtain ⟨t0, h0⟩ := reaches hf _ (Nat.le_refl _)
  obtain ⟨t', h1, h2⟩ := hf.caller (max t t0)
  refine ⟨t', by omega, ?_⟩
  have := phase_from h0 (show t0 ≤ t' by omega)
  simp only [proj_run, h2, proj]
  rw [if_neg (by omega)]

theorem go_of_work {k : Cfg} {w : Nat → Worker} {σ : Nat → Act} {c t : Nat} (hc : 1 ≤ c) (hcw : c ≤ k.workers)
    (hw : (trace k w σ t).worker c = .work) (ha : σ t = .worker c) : proj_run k w σ t = .go c := by
  have hg : ¬ (c = 0 ∨ k.workers < c) := by omega
  simp only [proj_run, ha, proj, if_neg hg, hw]

theorem counter_fair {k : Cfg} {w : Nat → Worker} (hw : Before w) {σ : Nat → Act} (hf : Fair k w σ) :
    Counter.Fair k.g (proj_run k w σ) := by
  refine ⟨go0_often hf, ?_⟩
  intro t c hb
  by_cases hc : c = 0
  · subst hc; exact go0_often hf t
  have hinv := inv_trace k w hw σ t
  have hb' : ((trace k w σ t).item.pc c).busy = true := by rw [trace_item]; exact hb
  have hwk : (trace k w σ t).worker c = .work := by
    refine Classical.byContradiction fun h => ?_
    have := hinv.away c hc h
    cases hp : (trace k w σ t).item.pc c <;> rw [hp] at hb' this <;> simp [Counter.PC.busy, out] at hb' this
  have hcw := (hinv.inwork c hwk).2.1
  obtain ⟨t', h1, h2, h3⟩ := first_time (P := fun u => σ u = .worker c) (hf.worker c (by omega) hcw t)
  have hh := hold_until (k := k) (w := w) (σ := σ) (c := c) (t := t) (by rw [hwk]; simp) (t' - t) fun u a b => h3 u a (by omega)
  rw [show t + (t' - t) = t' by omega, hwk] at hh
  exact ⟨t', h1, go_of_work (by omega) hcw hh h2⟩

theorem helped_trace {k : Cfg} {w : Nat → Worker} (hw : Before w) {σ : Nat → Act} (hT : 1 ≤ k.g.wakeup) (hW : 1 ≤ k.workers)
    (hm : k.os = .mac → NotLost k w σ) (t : Nat) (h : 2 ≤ (trace k w σ t).phase) : Helped k (trace k w σ t) := by
  induction t with
  | zero => simp [trace, start] at h
  | succ t ih =>
    have hinv := inv_trace k w hw σ t
    show Helped k (step k (trace k w σ t) (σ t))
    have h' : 2 ≤ (step k (trace k w σ t) (σ t)).phase := h
    by_cases hp : 2 ≤ (trace k w σ t).phase
    · exact helped_step hinv hp _ (ih hp)
    · by_cases ha : σ t = .caller
      · have h1 : (trace k w σ t).phase = 1 := by
          rw [ha] at h'
          simp only [step] at h'
          split at h'
          · split at h' <;> simp only at h' <;> omega
          · simp only at h'; omega
        rw [ha]
        exact helped_wake hinv hT hW h1 (fun ho => hm ho t ha h1)
      · rw [phase_other _ _ _ ha] at h'; exact absurd h' hp

theorem drained {k : Cfg} {w : Nat → Worker} (hw : Before w) {σ : Nat → Act} (hf : Fair k w σ) (hT : 1 ≤ k.g.wakeup)
    (hW : 1 ≤ k.workers) (hm : k.os = .mac → NotLost k w σ) :
    ∃ t, k.g.N ≤ (Counter.trace k.g (proj_run k w σ) t).next := by
  refine Classical.byContradiction fun hcon => ?_
  have nd : ∀ t, ¬ k.g.N ≤ (trace k w σ t).item.next := by
    intro t h; rw [trace_item] at h; exact hcon ⟨t, h⟩
  obtain ⟨t1, h1 | h1⟩ := Counter.thread_drains (g := k.g) (Nat.zero_le _) (go0_often hf)
  · exact hcon ⟨t1, h1⟩
  rcases Counter.stopped_why (Counter.inv_trace k.g _ t1) h1 with ⟨hskip, hz⟩ | h
  case inr => exact hcon ⟨t1, h⟩
  have hz' : ∀ t, t1 ≤ t → (trace k w σ t).item.zeroBy = some 0 := by
    intro t ht
    have := Counter.trace_zeroBy k.g (proj_run k w σ) t1 (t - t1) hz
    rw [show t1 + (t - t1) = t by omega] at this
    rw [trace_item]; exact this
  have hpp := pools_pos k.g.wakeup
  have hp1 : 2 ≤ (trace k w σ t1).phase := by
    refine Classical.byContradiction fun hp => ?_
    have := (inv_trace k w hw σ t1).early (by omega)
    rw [trace_item] at this
    have e : (Counter.trace k.g (proj_run k w σ) t1).pc 0 = .fetch false := this
    rw [e] at h1; simp [Counter.PC.stopped] at h1
  have hp : ∀ t, t1 ≤ t → 2 ≤ (trace k w σ t).phase := fun t ht => phase_from hp1 ht
  rcases helped_trace hw hT hW hm t1 hp1 with h | ⟨c, hc, h⟩ | ⟨c, hc, hc3, hcT, hcW, hn⟩
  · exact nd t1 h
  · rw [hz' t1 (Nat.le_refl _)] at h; injection h; omega
  have hg : ¬ (c = 0 ∨ k.workers < c) := by omega
  have fr : ∀ t, t1 ≤ t → fresh (trace k w σ t) c = true := fun t ht => fresh_small (by have := hp t ht; omega) hc3
  -- one scheduled step of worker c
  have next : ∀ t, t1 ≤ t → (trace k w σ t).worker c ≠ .asleep →
      ∃ t', t ≤ t' ∧ σ t' = .worker c ∧ (trace k w σ t').worker c = (trace k w σ t).worker c := by
    intro t ht hna
    obtain ⟨t', a, b, d⟩ := first_time (P := fun u => σ u = .worker c) (hf.worker c hc hcW t)
    refine ⟨t', a, b, ?_⟩
    have hh := hold_until (k := k) (w := w) (σ := σ) hna (t' - t) fun u x y => d u x (by omega)
    rwa [show t + (t' - t) = t' by omega] at hh
  have fromTop : ∀ t, t1 ≤ t → (trace k w σ t).worker c = .top → ∃ t', t1 ≤ t' ∧ (trace k w σ t').worker c = .work := by
    intro t ht hx
    obtain ⟨t', a, b, d⟩ := next t ht (by rw [hx]; simp)
    refine ⟨t' + 1, by omega, ?_⟩
    show (step k (trace k w σ t') (σ t')).worker c = _
    rw [hx] at d
    simp [b, step, hg, d, fr t' (by omega), hcT, upd]
  -- without WaitOnAddress: the sleep ends
  have fromSleep : k.os = .windows7 → ∀ t, t1 ≤ t → (trace k w σ t).worker c = .asleep →
      ∃ t', t1 ≤ t' ∧ (trace k w σ t').worker c = .work := by
    intro ho t ht hx
    obtain ⟨t', a, b, d⟩ := first_time (P := fun u => σ u = .spurious c) (hf.sleep ho c hc hcW t)
    have still : ∀ j, t + j ≤ t' → (trace k w σ (t + j)).worker c = .asleep := by
      intro j
      induction j with
      | zero => intro _; exact hx
      | succ j ih =>
        intro hj
        have e := ih (by omega)
        show (step k (trace k w σ (t + j)) (σ (t + j))).worker c = _
        have hns := d (t + j) (by omega) (by omega)
        cases ha : σ (t + j) with
        | caller =>
          simp only [step]
          split
          · split
            · exact e
            · have : woken k (trace k w σ (t + j)) c = false := by simp [woken, ho]
              simp [this, e]
          · exact e
        | spurious d' =>
          simp only [step]
          split
          · have : c ≠ d' := fun x => hns (by rw [ha, x])
            simp [upd, this, e]
          · exact e
        | worker d' =>
          simp only [step]
          split
          · exact e
          · by_cases ed : c = d'
            · subst ed; simp [e]
            · split <;> (try split) <;> (try split) <;> simp [upd, ed, e]
    have e := still (t' - t) (by omega)
    rw [show t + (t' - t) = t' by omega] at e
    refine fromTop (t' + 1) (by omega) ?_
    show (step k (trace k w σ t') (σ t')).worker c = _
    simp [b, step, e, upd, show c ≠ 0 by omega]
  have reach : ∃ t2, t1 ≤ t2 ∧ (trace k w σ t2).worker c = .work := by
    cases h : (trace k w σ t1).worker c with
    | top => exact fromTop t1 (Nat.le_refl _) h
    | work => exact ⟨t1, Nat.le_refl _, h⟩
    | asleep => rw [h] at hn; exact fromSleep hn t1 (Nat.le_refl _) h
    | wait f =>
      rw [h] at hn
      obtain ⟨t', a, b, d⟩ := next t1 (Nat.le_refl _) (by rw [h]; simp)
      rw [h] at d
      rcases hn with ⟨ho, rfl⟩ | ho
      · refine fromTop (t' + 1) (by omega) ?_
        show (step k (trace k w σ t') (σ t')).worker c = _
        simp [b, step, hg, d, fr t' (by omega), goSleep, ho, upd]
      · refine fromSleep ho (t' + 1) (by omega) ?_
        show (step k (trace k w σ t') (σ t')).worker c = _
        simp [b, step, hg, d, goSleep, ho, upd]
  obtain ⟨t2, ht2, hw2⟩ := reach
  have stays : ∀ j, (trace k w σ (t2 + j)).worker c = .work := by
    intro j
    induction j with
    | zero => exact hw2
    | succ j ih =>
      show (step k (trace k w σ (t2 + j)) (σ (t2 + j))).worker c = _
      by_cases ha : σ (t2 + j) = .worker c
      · have hnr : ∀ did, (trace k w σ (t2 + j)).item.pc c ≠ .ret did := by
          intro did hx
          rcases (inv_trace k w hw σ (t2 + j)).item.retWhy c (Or.inr (Or.inr (Or.inr ⟨did, hx⟩))) with y | y
          · rw [hz' _ (by omega)] at y; have := y.2; injection this; omega
          · exact nd _ y
        simp only [ha, step, if_neg hg, ih, upd, if_true]
        cases hx : (trace k w σ (t2 + j)).item.pc c with
        | ret did => exact absurd hx (hnr did)
        | _ => rfl
      · rw [hold (by rw [ih]; simp) _ ha, ih]
  have often : ∀ t, ∃ t', t ≤ t' ∧ proj_run k w σ t' = .go c := by
    intro t
    obtain ⟨t', a, b⟩ := hf.worker c hc hcW (max t t2)
    refine ⟨t', by omega, go_of_work hc hcW ?_ b⟩
    have := stays (t' - t2)
    rwa [show t2 + (t' - t2) = t' by omega] at this
  exact hcon (Counter.drains (go0_often hf) fun _ => ⟨c, hc, hcT, often⟩)

theorem returns {k : Cfg} {w : Nat → Worker} (hw : Before w) {σ : Nat → Act} (hf : Fair k w σ) (hT : 1 ≤ k.g.wakeup)
    (hW : 1 ≤ k.workers) (hm : k.os = .mac → NotLost k w σ) :
    ∃ t, (trace k w σ t).item.pc 0 = .returned := by
  obtain ⟨t, h⟩ := Counter.live_of_drained (counter_fair hw hf) (drained hw hf hT hW hm)
  exact ⟨t, by rw [trace_item]; exact h⟩

end Pnumpy.OtherOs
