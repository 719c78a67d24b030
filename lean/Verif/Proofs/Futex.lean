import Verif.Spec.TermsWork
import Verif.Model.Futex
import Verif.Proofs.WorkCounter
/-
Invariants and progress of `Verif.Model.Futex`.
-/
namespace Pnumpy.Futex
open Pnumpy.Work (upd)

/-- The step of the item's own model that a step corresponds to (`.wake 0`: none). -/
def proj (k : Cfg) (s : St) : Act → Counter.Act
  | .caller _ => if s.phase = .work then .go 0 else .wake 0
  | .worker c =>
    if c = 0 ∨ k.workers < c then .wake 0 else
    match s.worker c with
    | .top => if fresh k s c = true ∧ c ≤ k.g.wakeup then .wake c else .wake 0
    | .work => .go c
    | _ => .wake 0
  | .spurious _ => .wake 0

theorem wake0 (g : Counter.Cfg) (s : Counter.St) : Counter.step g s (.wake 0) = s := by simp [Counter.step]

theorem step_item (k : Cfg) (s : St) (a : Act) : (step k s a).item = Counter.step k.g s.item (proj k s a) := by
  cases a with
  | caller S =>
    cases hp : s.phase <;> simp only [step, proj, hp, reduceCtorEq, if_false, if_true, wake0]
    split <;> rfl
  | worker c =>
    simp only [step, proj]
    split
    · rw [wake0]
    · cases hw : s.worker c with
      | top =>
        simp only
        by_cases h1 : fresh k s c = true <;> by_cases h2 : c ≤ k.g.wakeup <;> simp [h1, h2, wake0]
      | wait f => simp [wake0]
      | asleep => simp [wake0]
      | work => rfl
  | spurious c =>
    simp only [step, proj, wake0]
    split <;> rfl

theorem trace_item (k : Cfg) (w : Nat → Worker) (σ : Nat → Act) (t : Nat) :
    (trace k w σ t).item = Counter.trace k.g (fun u => proj k (trace k w σ u) (σ u)) t := by
  induction t with
  | zero => rfl
  | succ t ih => simp only [trace, Counter.trace, step_item, ih]

/-- Outside `DoWork`. -/
def out : Counter.PC → Prop
  | .idle => True
  | .fetch d => d = false
  | .asleep => True
  | _ => False

structure Inv (k : Cfg) (s : St) : Prop where
  item : Counter.Inv k.g s.item
  away : ∀ c, c ≠ 0 → s.worker c ≠ .work → out (s.item.pc c)
  far : ∀ c, k.workers < c → c ≠ 0 → s.item.pc c = .idle
  inwork : ∀ c, s.worker c = .work → 1 ≤ c ∧ c ≤ k.workers ∧ c ≤ k.g.wakeup
  early : s.phase ≠ .work → s.item.pc 0 = .fetch false
  waits : ∀ c, 1 ≤ c → c ≤ k.g.wakeup → c ≤ k.workers → s.worker c = .wait true →
    s.item.zeroBy = some c ∨ k.g.N ≤ s.item.next
  nopub : s.phase = .publish → ∀ c, s.worker c ≠ .wait true ∧ s.worker c ≠ .work

/-- Somebody will make sure that the tickets are drawn. -/
def Helped (k : Cfg) (s : St) : Prop :=
  k.g.N ≤ s.item.next ∨ (∃ c, 1 ≤ c ∧ s.item.zeroBy = some c) ∨
    ∃ c, 1 ≤ c ∧ c ≤ 3 ∧ c ≤ k.g.wakeup ∧ c ≤ k.workers ∧ (s.worker c = .top ∨ s.worker c = .wait false ∨ s.worker c = .work)

theorem inv_start (k : Cfg) (w : Nat → Worker) (hw : Before w) : Inv k (start w) := by
  refine ⟨Counter.inv_init k.g, ?_, ?_, ?_, fun _ => rfl, ?_, ?_⟩
  · intro c hc _; simp [start, Counter.init, hc, out]
  · intro c _ hc; simp [start, Counter.init, hc]
  · intro c h; rcases hw c with h' | h' | h' <;> simp [start, h'] at h
  · intro c _ _ _ h; rcases hw c with h' | h' | h' <;> simp [start, h'] at h
  · intro _ c; rcases hw c with h' | h' | h' <;> simp [start, h']

theorem fresh_small {k : Cfg} {s : St} {c : Nat} (hp : s.phase ≠ .publish) (hc : c ≤ 3) : fresh k s c = true := by
  have : c / 4 = 0 := by omega
  simp [fresh, notified, this, hp]

private theorem counter_other (g : Counter.Cfg) (s : Counter.St) {c d : Nat} (h : d ≠ c) :
    (Counter.step g s (.go c)).pc d = s.pc d := Counter.step_other g s h _ (Or.inl rfl)

private theorem counter_wake_other (g : Counter.Cfg) (s : Counter.St) {c d : Nat} (h : d ≠ c) :
    (Counter.step g s (.wake c)).pc d = s.pc d := Counter.step_other g s h _ (Or.inr rfl)

private theorem wake_misc (g : Counter.Cfg) (s : Counter.St) (c : Nat) :
    (Counter.step g s (.wake c)).next = s.next ∧ (Counter.step g s (.wake c)).zeroBy = s.zeroBy := by
  simp only [Counter.step]; split <;> exact ⟨rfl, rfl⟩

/-- What the waiting-for-tickets alternatives of an invariant do under a step of the item. -/
private theorem keep {g : Counter.Cfg} {s : Counter.St} (h : Counter.Inv g s) (a : Counter.Act) {c : Nat}
    (hc : s.zeroBy = some c ∨ g.N ≤ s.next) :
    (Counter.step g s a).zeroBy = some c ∨ g.N ≤ (Counter.step g s a).next := by
  rcases hc with hc | hc
  · exact Or.inl (Counter.zeroBy_stable h a hc)
  · exact Or.inr (Nat.le_trans hc (Counter.next_mono g s a))

theorem inv_step {k : Cfg} {s : St} (h : Inv k s) (a : Act) : Inv k (step k s a) := by
  have hitem : Counter.Inv k.g (step k s a).item := by rw [step_item]; exact Counter.inv_step h.item _
  obtain ⟨a1, a2, a3, a4, a5, a6, a7⟩ := h
  cases a with
  | caller S =>
    cases hp : s.phase with
    | publish =>
      refine ⟨hitem, ?_, ?_, ?_, ?_, ?_, ?_⟩ <;> simp only [step, hp]
      · exact a2
      · exact a3
      · exact a4
      · intro _; exact a5 (by simp [hp])
      · exact a6
      · simp
    | wake =>
      by_cases hl : Legal k s S
      · refine ⟨hitem, ?_, ?_, ?_, ?_, ?_, ?_⟩ <;> simp only [step, hp, if_pos hl]
        · intro c hc hw
          split at hw
          · rename_i hs
            exact a2 c hc (by rw [(hl.1 c hs).2.2.1]; simp)
          · exact a2 c hc hw
        · exact a3
        · intro c hw
          split at hw
          · simp at hw
          · exact a4 c hw
        · simp
        · intro c h1 h2 h3 hw
          split at hw
          · simp at hw
          · exact a6 c h1 h2 h3 hw
        · simp
      · have e : step k s (.caller S) = s := by simp only [step, hp, if_neg hl]
        rw [e]; exact ⟨a1, a2, a3, a4, a5, a6, a7⟩
    | work =>
      refine ⟨hitem, ?_, ?_, ?_, ?_, ?_, ?_⟩ <;> simp only [step, hp]
      · intro c hc hw; rw [counter_other _ _ hc]; exact a2 c hc hw
      · intro c hc hc0; rw [counter_other _ _ hc0]; exact a3 c hc hc0
      · exact a4
      · simp
      · intro c h1 h2 h3 hw; exact keep a1 _ (a6 c h1 h2 h3 hw)
      · simp
  | spurious c =>
    by_cases hc : c ≠ 0 ∧ s.worker c = .asleep
    · refine ⟨hitem, ?_, ?_, ?_, ?_, ?_, ?_⟩ <;> simp only [step, if_pos hc]
      · intro d hd hw; by_cases e : d = c
        · subst e; exact a2 d hd (by rw [hc.2]; simp)
        · simp only [upd, if_neg e] at hw; exact a2 d hd hw
      · exact a3
      · intro d hw; by_cases e : d = c
        · subst e; simp [upd] at hw
        · simp only [upd, if_neg e] at hw; exact a4 d hw
      · exact a5
      · intro d h1 h2 h3 hw; by_cases e : d = c
        · subst e; simp [upd] at hw
        · simp only [upd, if_neg e] at hw; exact a6 d h1 h2 h3 hw
      · intro hp d; by_cases e : d = c
        · subst e; simp [upd]
        · simp only [upd, if_neg e]; exact a7 hp d
    · have e : step k s (.spurious c) = s := by simp only [step, if_neg hc]
      rw [e]; exact ⟨a1, a2, a3, a4, a5, a6, a7⟩
  | worker c =>
    by_cases hc : c = 0 ∨ k.workers < c
    · have e : step k s (.worker c) = s := by simp only [step, if_pos hc]
      rw [e]; exact ⟨a1, a2, a3, a4, a5, a6, a7⟩
    have hc0 : c ≠ 0 := fun h => hc (Or.inl h)
    have hcw : c ≤ k.workers := by omega
    -- a worker that changes its own state outside `DoWork`
    have local_ : ∀ v : Worker, v ≠ .work → s.worker c ≠ .work →
        (v = .wait true → s.phase ≠ .publish ∧ (c ≤ k.g.wakeup → s.item.zeroBy = some c ∨ k.g.N ≤ s.item.next)) →
        Inv k { s with worker := upd s.worker c v } := by
      intro v hv hnw hvt
      refine ⟨a1, ?_, a3, ?_, a5, ?_, ?_⟩
      · intro d hd hw; by_cases e : d = c
        · subst e; exact a2 d hd hnw
        · simp only [upd, if_neg e] at hw; exact a2 d hd hw
      · intro d hw; by_cases e : d = c
        · subst e; simp [upd, hv] at hw
        · simp only [upd, if_neg e] at hw; exact a4 d hw
      · intro d h1 h2 h3 hw; by_cases e : d = c
        · subst e; simp only [upd, if_true] at hw; exact (hvt hw).2 h2
        · simp only [upd, if_neg e] at hw; exact a6 d h1 h2 h3 hw
      · intro hp d; by_cases e : d = c
        · subst e; simp only [upd, if_true]
          exact ⟨fun x => (hvt x).1 hp, hv⟩
        · simp only [upd, if_neg e]; exact a7 hp d
    cases hw : s.worker c with
    | asleep =>
      have e : step k s (.worker c) = s := by simp only [step, if_neg hc, hw]
      rw [e]; exact ⟨a1, a2, a3, a4, a5, a6, a7⟩
    | wait f =>
      simp only [step, if_neg hc, hw]
      exact local_ _ (by split <;> simp) (by simp [hw]) (by split <;> simp)
    | top =>
      by_cases hf : fresh k s c = true
      · have hpub : s.phase ≠ .publish := by
          intro e; simp [fresh, e] at hf
        by_cases hcT : c ≤ k.g.wakeup
        · simp only [step, if_neg hc, hw, if_pos hf, if_pos hcT] at hitem ⊢
          refine ⟨hitem, ?_, ?_, ?_, ?_, ?_, ?_⟩
          · intro d hd hwd; by_cases e : d = c
            · subst e; simp [upd] at hwd
            · simp only [upd, if_neg e] at hwd
              simp only [counter_wake_other _ _ e]; exact a2 d hd hwd
          · intro d hd hd0
            have e : d ≠ c := by omega
            simp only [counter_wake_other _ _ e]; exact a3 d hd hd0
          · intro d hwd; by_cases e : d = c
            · subst e; exact ⟨by omega, hcw, hcT⟩
            · simp only [upd, if_neg e] at hwd; exact a4 d hwd
          · intro hp
            simp only [counter_wake_other _ _ (Ne.symm hc0)]; exact a5 hp
          · intro d h1 h2 h3 hwd; by_cases e : d = c
            · subst e; simp [upd] at hwd
            · simp only [upd, if_neg e] at hwd; exact keep a1 _ (a6 d h1 h2 h3 hwd)
          · intro hp; exact absurd hp hpub
        · simp only [step, if_neg hc, hw, if_pos hf, if_neg hcT]
          exact local_ _ (by simp) (by simp [hw]) (fun _ => ⟨hpub, fun h => absurd h hcT⟩)
      · simp only [step, if_neg hc, hw, if_neg hf]
        exact local_ _ (by simp) (by simp [hw]) (by simp)
    | work =>
      have hcT := (a4 c hw).2.2
      have hpub : s.phase ≠ .publish := fun e => (a7 e c).2 hw
      have hnot : ¬ k.g.wakeup < c := by omega
      simp only [step, if_neg hc, hw] at hitem ⊢
      refine ⟨hitem, ?_, ?_, ?_, ?_, ?_, ?_⟩
      · intro d hd hwd; by_cases e : d = c
        · subst e
          simp only [upd, if_true] at hwd
          cases hp : s.item.pc d with
          | ret did =>
            simp only [Counter.step, if_neg hnot, hp, upd, if_true, if_neg hd]
            cases did <;> simp [out]
          | _ => simp [hp] at hwd
        · simp only [upd, if_neg e] at hwd
          simp only [counter_other _ _ e]; exact a2 d hd hwd
      · intro d hd hd0
        have e : d ≠ c := by omega
        simp only [counter_other _ _ e]; exact a3 d hd hd0
      · intro d hwd; by_cases e : d = c
        · subst e; exact ⟨by omega, hcw, hcT⟩
        · simp only [upd, if_neg e] at hwd; exact a4 d hwd
      · intro hp
        simp only [counter_other _ _ (Ne.symm hc0)]; exact a5 hp
      · intro d h1 h2 h3 hwd; by_cases e : d = c
        · subst e
          simp only [upd, if_true] at hwd
          cases hp : s.item.pc d with
          | ret did => exact keep a1 _ (a1.retWhy d (Or.inr (Or.inr (Or.inr ⟨did, hp⟩))) |>.imp And.right id)
          | _ => simp [hp] at hwd
        · simp only [upd, if_neg e] at hwd; exact keep a1 _ (a6 d h1 h2 h3 hwd)
      · intro hp; exact absurd hp hpub

theorem inv_trace (k : Cfg) (w : Nat → Worker) (hw : Before w) (σ : Nat → Act) (t : Nat) : Inv k (trace k w σ t) := by
  induction t with
  | zero => exact inv_start k w hw
  | succ t ih => exact inv_step ih _

/-- One of the threads the call wakes is sure to take part. -/
def Enough (k : Cfg) : Prop := 1 ≤ k.g.wakeup ∧ 1 ≤ k.workers ∧ (2 ≤ k.g.wakeup ∨ k.workers = 1)

/-- At the wake-up with `ThreadWakeup ≥ 2` one of the workers 1 and 2 is awake or woken. -/
theorem helped_wake {k : Cfg} {s : St} (h : Inv k s) (hE : Enough k) (S : Nat → Bool)
    (hl : Legal k s S) : Helped k { s with phase := .work, worker := fun c => if S c then .top else s.worker c } := by
  by_cases hz : k.g.N ≤ s.item.next ∨ ∃ c, 1 ≤ c ∧ s.item.zeroBy = some c
  · rcases hz with hz | hz
    · exact Or.inl hz
    · exact Or.inr (Or.inl hz)
  refine Or.inr (Or.inr ?_)
  obtain ⟨hT1, hW1, hE⟩ := hE
  have one : ∀ c, 1 ≤ c → c ≤ 2 → c ≤ k.g.wakeup → c ≤ k.workers → (s.worker c ≠ .asleep ∨ S c = true) →
      ∃ c, 1 ≤ c ∧ c ≤ 3 ∧ c ≤ k.g.wakeup ∧ c ≤ k.workers ∧ ((if S c then Worker.top else s.worker c) = .top ∨
        (if S c then Worker.top else s.worker c) = .wait false ∨ (if S c then Worker.top else s.worker c) = .work) := by
    intro c hc hc2 hcT hcW hs
    refine ⟨c, by omega, by omega, by omega, by omega, ?_⟩
    by_cases hS : S c = true
    · simp [hS]
    · simp only [hS]
      have ha : s.worker c ≠ .asleep := hs.resolve_right hS
      cases hw : s.worker c with
      | top => simp
      | work => simp
      | asleep => exact absurd hw ha
      | wait f =>
        cases f with
        | false => simp
        | true =>
          exfalso
          rcases h.waits c (by omega) (by omega) (by omega) hw with hx | hx
          · exact hz (Or.inr ⟨c, by omega, hx⟩)
          · exact hz (Or.inl hx)
  by_cases h1 : s.worker 1 ≠ .asleep ∨ S 1 = true
  · exact one 1 (by omega) (by omega) hT1 hW1 h1
  have e1 : s.worker 1 = .asleep := Classical.byContradiction fun x => h1 (Or.inl x)
  have f1 : S 1 = false := by simpa using fun x => h1 (Or.inr x)
  have hlen := hl.2.1
  by_cases hW : k.workers = 1
  · exfalso
    have es : sleepers0 k s = [1] := by simp [sleepers0, e1, hW, List.filter]
    rw [es] at hlen
    simp only [List.filter, f1, List.length_nil, List.length_cons] at hlen; omega
  have hT : 2 ≤ k.g.wakeup := hE.resolve_right hW
  have hW : 2 ≤ k.workers := by omega
  by_cases h2 : s.worker 2 ≠ .asleep ∨ S 2 = true
  · exact one 2 (by omega) (by omega) hT hW h2
  exfalso
  have e2 : s.worker 2 = .asleep := Classical.byContradiction fun x => h2 (Or.inl x)
  have f2 : S 2 = false := by simpa using fun x => h2 (Or.inr x)
  have w1 : 1 ≤ k.workers := by omega
  by_cases h3 : 3 ≤ k.workers ∧ s.worker 3 = .asleep
  · have es : sleepers0 k s = [1, 2, 3] := by simp [sleepers0, e1, e2, w1, hW, h3.1, h3.2]
    rw [es] at hlen
    have : ([1, 2, 3].filter fun c => S c).length ≤ 1 := by
      simp only [List.filter, f1, f2]; split <;> simp
    simp at hlen; omega
  · have es : sleepers0 k s = [1, 2] := by
      have : (decide (3 ≤ k.workers) && s.worker 3 == .asleep) = false := by simpa using h3
      simp [sleepers0, e1, e2, w1, hW, this, List.filter]
    rw [es] at hlen
    simp only [List.filter, f1, f2, List.length_nil, List.length_cons] at hlen; omega

theorem helped_step {k : Cfg} {s : St} (h : Inv k s) (hE : Enough k) (a : Act)
    (hs : s.phase = .work → Helped k s) (hp : (step k s a).phase = .work) : Helped k (step k s a) := by
  by_cases hold : s.phase = .work
  case neg =>
    cases a with
    | worker c =>
      exfalso
      have : (step k s (.worker c)).phase = s.phase := by
        simp only [step]; split
        · rfl
        · split <;> (try split) <;> (try split) <;> rfl
      exact hold (this ▸ hp)
    | spurious c =>
      exfalso
      have : (step k s (.spurious c)).phase = s.phase := by
        simp only [step]; split <;> rfl
      exact hold (this ▸ hp)
    | caller S =>
      cases hq : s.phase with
      | publish => simp [step, hq] at hp
      | work => exact absurd hq hold
      | wake =>
        simp only [step, hq] at hp ⊢
        by_cases hl : Legal k s S
        · rw [if_pos hl]; exact helped_wake h hE S hl
        · rw [if_neg hl, hq] at hp; simp at hp
  case pos =>
    rcases hs hold with hd | ⟨c, hc, hz⟩ | ⟨c, h1, h3, hT', hW', hn⟩
    · exact Or.inl (by rw [step_item]; exact Nat.le_trans hd (Counter.next_mono _ _ _))
    · exact Or.inr (Or.inl ⟨c, hc, by rw [step_item]; exact Counter.zeroBy_stable h.item _ hz⟩)
    · have stay : (step k s a).worker c = s.worker c → Helped k (step k s a) := by
        intro e; exact Or.inr (Or.inr ⟨c, h1, h3, hT', hW', by rw [e]; exact hn⟩)
      have hf : fresh k s c = true := fresh_small (by simp [hold]) h3
      cases a with
      | caller S => exact stay (by simp [step, hold])
      | spurious d =>
        refine stay ?_
        simp only [step]
        split
        · rename_i hd
          by_cases e : c = d
          · subst e; rcases hn with x | x | x <;> rw [hd.2] at x <;> simp at x
          · simp [upd, e]
        · rfl
      | worker d =>
        by_cases e : c = d
        · subst e
          have hg : ¬ (c = 0 ∨ k.workers < c) := by omega
          rcases hn with x | x | x
          · refine Or.inr (Or.inr ⟨c, h1, h3, hT', hW', ?_⟩)
            simp [step, hg, x, hf, hT', upd]
          · refine Or.inr (Or.inr ⟨c, h1, h3, hT', hW', ?_⟩)
            simp [step, hg, x, hf, upd]
          · cases hp : s.item.pc c with
            | ret did =>
              rcases h.item.retWhy c (Or.inr (Or.inr (Or.inr ⟨did, hp⟩))) with y | y
              · exact Or.inr (Or.inl ⟨c, h1, by rw [step_item]; exact Counter.zeroBy_stable h.item _ y.2⟩)
              · exact Or.inl (by rw [step_item]; exact Nat.le_trans y (Counter.next_mono _ _ _))
            | _ =>
              refine Or.inr (Or.inr ⟨c, h1, h3, hT', hW', ?_⟩)
              simp [step, hg, x, hp, upd]
        · refine stay ?_
          simp only [step]
          split
          · rfl
          · split <;> (try split) <;> (try split) <;> simp [upd, e]

/-- A worker that is not asleep and takes no step stays where it is. -/
theorem hold {k : Cfg} {s : St} {c : Nat} (hw : s.worker c ≠ .asleep) (a : Act) (ha : a ≠ .worker c) :
    (step k s a).worker c = s.worker c := by
  cases a with
  | caller S =>
    cases hp : s.phase <;> simp only [step, hp]
    split
    · rename_i hl
      by_cases hS : S c = true
      · exact absurd (hl.1 c hS).2.2.1 hw
      · simp [hS]
    · rfl
  | spurious d =>
    simp only [step]
    split
    · rename_i hd
      by_cases e : c = d
      · subst e; exact absurd hd.2 hw
      · simp [upd, e]
    · rfl
  | worker d =>
    have e : c ≠ d := fun e => ha (by rw [e])
    simp only [step]
    split
    · rfl
    · split <;> (try split) <;> (try split) <;> simp [upd, e]

theorem hold_until {k : Cfg} {w : Nat → Worker} {σ : Nat → Act} {c t : Nat} (hw : (trace k w σ t).worker c ≠ .asleep) (j : Nat)
    (hn : ∀ u, t ≤ u → u < t + j → σ u ≠ .worker c) : (trace k w σ (t + j)).worker c = (trace k w σ t).worker c := by
  induction j with
  | zero => rfl
  | succ j ih =>
    have e := ih fun u h1 h2 => hn u h1 (by omega)
    show (step k (trace k w σ (t + j)) (σ (t + j))).worker c = _
    rw [hold (by rw [e]; exact hw) _ (hn (t + j) (by omega) (by omega)), e]

/-- First time something happens. -/
theorem first_time {P : Nat → Prop} {t : Nat} (h : ∃ t', t ≤ t' ∧ P t') :
    ∃ t', t ≤ t' ∧ P t' ∧ ∀ u, t ≤ u → u < t' → ¬ P u := by
  obtain ⟨t', h1, h2⟩ := h
  induction t' using Nat.strongRecOn with
  | ind n ih =>
    by_cases hx : ∃ u, t ≤ u ∧ u < n ∧ P u
    · obtain ⟨u, a, b, c⟩ := hx
      exact ih u b a c
    · exact ⟨n, h1, h2, fun u a b c => hx ⟨u, a, b, c⟩⟩

theorem phase_work {k : Cfg} {s : St} (h : s.phase = .work) (a : Act) : (step k s a).phase = .work := by
  cases a with
  | caller S => simp [step, h]
  | spurious d => simp only [step]; split <;> exact h
  | worker d =>
    simp only [step]; split
    · exact h
    · split <;> (try split) <;> (try split) <;> exact h

theorem phase_work_from {k : Cfg} {w : Nat → Worker} {σ : Nat → Act} {t : Nat} (h : (trace k w σ t).phase = .work) (j : Nat) :
    (trace k w σ (t + j)).phase = .work := by
  induction j with
  | zero => exact h
  | succ j ih => exact phase_work ih _

theorem phase_other {k : Cfg} {s : St} (a : Act) (h : s.phase = .wake) : (step k s a).phase = .wake ∨ (step k s a).phase = .work := by
  cases a with
  | caller S => simp only [step, h]; split <;> simp [h]
  | spurious d => simp only [step]; split <;> simp [h]
  | worker d =>
    simp only [step]; split
    · simp [h]
    · split <;> (try split) <;> (try split) <;> simp [h]

theorem reaches_work {k : Cfg} {w : Nat → Worker} {σ : Nat → Act} (hf : Fair k w σ) : ∃ t, (trace k w σ t).phase = .work := by
  obtain ⟨t1, _, S1, h1, h1'⟩ := hf.caller 0
  have hw : (trace k w σ (t1 + 1)).phase = .wake ∨ (trace k w σ (t1 + 1)).phase = .work := by
    show (step k (trace k w σ t1) (σ t1)).phase = _ ∨ _
    cases hp : (trace k w σ t1).phase with
    | publish => left; simp [h1, step, hp]
    | wake => exact phase_other _ hp
    | work => exact Or.inr (phase_work hp _)
  rcases hw with hw | hw
  case inr => exact ⟨_, hw⟩
  obtain ⟨t2, h2, S2, h3, h4⟩ := hf.caller (t1 + 1)
  have hw2 : ∀ j, (trace k w σ (t1 + 1 + j)).phase = .wake ∨ (trace k w σ (t1 + 1 + j)).phase = .work := by
    intro j
    induction j with
    | zero => exact Or.inl hw
    | succ j ih =>
      rcases ih with ih | ih
      · exact phase_other _ ih
      · exact Or.inr (phase_work ih _)
  have := hw2 (t2 - (t1 + 1))
  rw [show t1 + 1 + (t2 - (t1 + 1)) = t2 by omega] at this
  rcases this with hp | hp
  · refine ⟨t2 + 1, ?_⟩
    show (step k (trace k w σ t2) (σ t2)).phase = _
    simp only [h3, step, hp, if_pos (h4 hp)]
  · exact ⟨t2, hp⟩

/-- The projected run. -/
noncomputable def proj_run (k : Cfg) (w : Nat → Worker) (σ : Nat → Act) : Nat → Counter.Act := fun u => proj k (trace k w σ u) (σ u)

theorem go0_often {k : Cfg} {w : Nat → Worker} {σ : Nat → Act} (hf : Fair k w σ) (t : Nat) :
    ∃ t', t ≤ t' ∧ proj_run k w σ t' = .go 0 := by
  obtain ⟨t0, h0⟩ := reaches_work hf
  obtain ⟨t', h1, S, h2, _⟩ := hf.caller (max t t0)
  refine ⟨t', by omega, ?_⟩
  have := phase_work_from h0 (t' - t0)
  rw [show t0 + (t' - t0) = t' by omega] at this
  simp only [proj_run, h2, proj, this, if_true]

theorem go_of_work {k : Cfg} {w : Nat → Worker} {σ : Nat → Act} {c t : Nat} (hc : 1 ≤ c) (hcw : c ≤ k.workers)
    (hw : (trace k w σ t).worker c = .work) (ha : σ t = .worker c) : proj_run k w σ t = .go c := by
  have hg : ¬ (c = 0 ∨ k.workers < c) := by omega
  simp only [proj_run, ha, proj, if_neg hg, hw]

theorem counter_fair {k : Cfg} {w : Nat → Worker} (hw : Before w) {σ : Nat → Act} (hf : Fair k w σ) :
    Counter.Fair k.g (proj_run k w σ) := by
  refine ⟨go0_often hf, ?_⟩
  intro t c hb
  by_cases hc : c = 0
  · subst hc; exact go0_often hf t
  have hinv := inv_trace k w hw σ t
  have hb' : ((trace k w σ t).item.pc c).busy = true := by rw [trace_item]; exact hb
  have hwk : (trace k w σ t).worker c = .work := by
    refine Classical.byContradiction fun h => ?_
    have := hinv.away c hc h
    cases hp : (trace k w σ t).item.pc c <;> rw [hp] at hb' this <;> simp [Counter.PC.busy, out] at hb' this
  have hcw := (hinv.inwork c hwk).2.1
  obtain ⟨t', h1, h2, h3⟩ := first_time (P := fun u => σ u = .worker c) (hf.worker c (by omega) hcw t)
  have hh := hold_until (k := k) (w := w) (σ := σ) (c := c) (t := t) (by rw [hwk]; simp) (t' - t) fun u a b => h3 u a (by omega)
  rw [show t + (t' - t) = t' by omega, hwk] at hh
  exact ⟨t', h1, go_of_work (by omega) hcw hh h2⟩

theorem helped_trace {k : Cfg} {w : Nat → Worker} (hw : Before w) {σ : Nat → Act} (hE : Enough k) (t : Nat)
    (h : (trace k w σ t).phase = .work) : Helped k (trace k w σ t) := by
  induction t with
  | zero => simp [trace, start] at h
  | succ t ih => exact helped_step (inv_trace k w hw σ t) hE _ ih h

theorem drained {k : Cfg} {w : Nat → Worker} (hw : Before w) {σ : Nat → Act} (hf : Fair k w σ) (hE : Enough k) :
    ∃ t, k.g.N ≤ (Counter.trace k.g (proj_run k w σ) t).next := by
  refine Classical.byContradiction fun hcon => ?_
  have nd : ∀ t, ¬ k.g.N ≤ (trace k w σ t).item.next := by
    intro t h; rw [trace_item] at h; exact hcon ⟨t, h⟩
  obtain ⟨t1, h1 | h1⟩ := Counter.thread_drains (g := k.g) (Nat.zero_le _) (go0_often hf)
  · exact hcon ⟨t1, h1⟩
  rcases Counter.stopped_why (Counter.inv_trace k.g _ t1) h1 with ⟨hskip, hz⟩ | h
  case inr => exact hcon ⟨t1, h⟩
  have hz' : ∀ t, t1 ≤ t → (trace k w σ t).item.zeroBy = some 0 := by
    intro t ht
    have := Counter.trace_zeroBy k.g (proj_run k w σ) t1 (t - t1) hz
    rw [show t1 + (t - t1) = t by omega] at this
    rw [trace_item]; exact this
  have hp1 : (trace k w σ t1).phase = .work := by
    refine Classical.byContradiction fun hp => ?_
    have := (inv_trace k w hw σ t1).early hp
    rw [trace_item] at this
    have e : (Counter.trace k.g (proj_run k w σ) t1).pc 0 = .fetch false := this
    rw [e] at h1; simp [Counter.PC.stopped] at h1
  have hp : ∀ t, t1 ≤ t → (trace k w σ t).phase = .work := by
    intro t ht
    have := phase_work_from hp1 (t - t1)
    rwa [show t1 + (t - t1) = t by omega] at this
  rcases helped_trace hw hE t1 hp1 with h | ⟨c, hc, h⟩ | ⟨c, hc, hc3, hcT, hcW, hn⟩
  · exact nd t1 h
  · rw [hz' t1 (Nat.le_refl _)] at h; injection h; omega
  have hg : ¬ (c = 0 ∨ k.workers < c) := by omega
  have fr : ∀ t, t1 ≤ t → fresh k (trace k w σ t) c = true := fun t ht => fresh_small (by rw [hp t ht]; simp) hc3
  -- one scheduled step of worker c
  have next : ∀ t, t1 ≤ t → (trace k w σ t).worker c ≠ .asleep →
      ∃ t', t ≤ t' ∧ σ t' = .worker c ∧ (trace k w σ t').worker c = (trace k w σ t).worker c := by
    intro t ht hna
    obtain ⟨t', a, b, d⟩ := first_time (P := fun u => σ u = .worker c) (hf.worker c hc hcW t)
    refine ⟨t', a, b, ?_⟩
    have hh := hold_until (k := k) (w := w) (σ := σ) hna (t' - t) fun u x y => d u x (by omega)
    rwa [show t + (t' - t) = t' by omega] at hh
  have fromTop : ∀ t, t1 ≤ t → (trace k w σ t).worker c = .top → ∃ t', t1 ≤ t' ∧ (trace k w σ t').worker c = .work := by
    intro t ht hx
    obtain ⟨t', a, b, d⟩ := next t ht (by rw [hx]; simp)
    refine ⟨t' + 1, by omega, ?_⟩
    show (step k (trace k w σ t') (σ t')).worker c = _
    rw [hx] at d
    simp [b, step, hg, d, fr t' (by omega), hcT, upd]
  have reach : ∃ t2, t1 ≤ t2 ∧ (trace k w σ t2).worker c = .work := by
    rcases hn with h | h | h
    · exact fromTop t1 (Nat.le_refl _) h
    · obtain ⟨t', a, b, d⟩ := next t1 (Nat.le_refl _) (by rw [h]; simp)
      refine fromTop (t' + 1) (by omega) ?_
      show (step k (trace k w σ t') (σ t')).worker c = _
      rw [h] at d
      simp [b, step, hg, d, fr t' (by omega), upd]
    · exact ⟨t1, Nat.le_refl _, h⟩
  obtain ⟨t2, ht2, hw2⟩ := reach
  have stays : ∀ j, (trace k w σ (t2 + j)).worker c = .work := by
    intro j
    induction j with
    | zero => exact hw2
    | succ j ih =>
      show (step k (trace k w σ (t2 + j)) (σ (t2 + j))).worker c = _
      by_cases ha : σ (t2 + j) = .worker c
      · have hnr : ∀ did, (trace k w σ (t2 + j)).item.pc c ≠ .ret did := by
          intro did hx
          rcases (inv_trace k w hw σ (t2 + j)).item.retWhy c (Or.inr (Or.inr (Or.inr ⟨did, hx⟩))) with y | y
          · rw [hz' _ (by omega)] at y; have := y.2; injection this; omega
          · exact nd _ y
        simp only [ha, step, if_neg hg, ih, upd, if_true]
        cases hx : (trace k w σ (t2 + j)).item.pc c with
        | ret did => exact absurd hx (hnr did)
        | _ => rfl
      · rw [hold (by rw [ih]; simp) _ ha, ih]
  have often : ∀ t, ∃ t', t ≤ t' ∧ proj_run k w σ t' = .go c := by
    intro t
    obtain ⟨t', a, b⟩ := hf.worker c hc hcW (max t t2)
    refine ⟨t', by omega, go_of_work hc hcW ?_ b⟩
    have := stays (t' - t2)
    rwa [show t2 + (t' - t2) = t' by omega] at this
  exact hcon (Counter.drains (go0_often hf) fun _ => ⟨c, hc, hcT, often⟩)

theorem returns {k : Cfg} {w : Nat → Worker} (hw : Before w) {σ : Nat → Act} (hf : Fair k w σ) (hE : Enough k) :
    ∃ t, (trace k w σ t).item.pc 0 = .returned := by
  obtain ⟨t, h⟩ := Counter.live_of_drained (counter_fair hw hf) (drained hw hf hE)
  exact ⟨t, by rw [trace_item]; exact h⟩

end Pnumpy.Futex
