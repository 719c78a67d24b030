import Verif.Spec.TermsWork
import Verif.Model.Callers
import Mathlib.Data.List.Induction
/-
Invariants of `Verif.Model.Callers`.
-/
namespace Pnumpy.Callers
open Pnumpy.Work (upd)

/-- The thread has filled its item in. -/
def Thread.filled : Thread → Option (Nat × Job)
  | .publish i j => some (i, j)
  | .inCall i j => some (i, j)
  | .finish i j => some (i, j)
  | _ => none

def Item.job : Item → Job
  | .counter g _ => .counter g
  | .ufunc it _ => .ufunc it

/-- The item's state is one that the single-call model reaches. -/
def Item.Reach : Item → Prop
  | .counter g st => ∃ sched, st = Counter.exec g sched
  | .ufunc it st => ∃ sched, st = Work.exec it sched

theorem upd_same {β : Type} (f : Nat → β) (i : Nat) (v : β) : upd f i v i = v := by simp [upd]
theorem upd_ne {β : Type} (f : Nat → β) {i j : Nat} (v : β) (h : j ≠ i) : upd f i v j = f j := by simp [upd, h]

theorem Item.go_job (i : Item) (c : Nat) : (i.go c).job = i.job := by cases i <;> rfl
theorem Item.enter_job (i : Item) (c : Nat) : (i.enter c).job = i.job := by cases i <;> rfl
theorem Job.fresh_job (j : Job) : j.fresh.job = j := by cases j <;> rfl

theorem Item.go_reach {i : Item} (h : i.Reach) (c : Nat) : (i.go c).Reach := by
  cases i with
  | counter g st => obtain ⟨l, rfl⟩ := h; exact ⟨l ++ [.go c], by simp [Counter.exec, List.foldl_append]⟩
  | ufunc it st => obtain ⟨l, rfl⟩ := h; exact ⟨l ++ [c], by simp [Work.exec, List.foldl_append]⟩

theorem Item.enter_reach {i : Item} (h : i.Reach) (c : Nat) : (i.enter c).Reach := by
  cases i with
  | counter g st => obtain ⟨l, rfl⟩ := h; exact ⟨l ++ [.wake c], by simp [Counter.exec, List.foldl_append]⟩
  | ufunc it st => exact h

theorem Job.fresh_reach (j : Job) : j.fresh.Reach := by
  cases j <;> exact ⟨[], rfl⟩

private theorem counter_pc0 (g : Counter.Cfg) (st : Counter.St) (c : Nat) (hc : c ≠ 0) :
    (Counter.step g st (.go c)).pc 0 = st.pc 0 := by
  have h0 : (0 : Nat) ≠ c := fun h => hc h.symm
  simp only [Counter.step]
  split
  · rfl
  · split <;> (try rfl) <;> (try simp [upd, h0])
    split <;> simp [upd, h0]

private theorem work_pc0 (it : Work.Item) (st : Work.St) (c : Nat) (hc : c ≠ 0) : (Work.step it st c).pc 0 = st.pc 0 := by
  have h0 : (0 : Nat) ≠ c := fun h => hc h.symm
  simp only [Work.step, Work.tryClaim]
  split
  · rfl
  · split <;> (try rfl) <;> (try simp [upd, h0])
    all_goals (repeat' split) <;> simp_all [upd]

theorem Item.go_returned {i : Item} (c : Nat) (hc : c ≠ 0) : (i.go c).returned ↔ i.returned := by
  cases i with
  | counter g st => simp only [Item.go, Item.returned, counter_pc0 g st c hc]
  | ufunc it st => simp only [Item.go, Item.returned, work_pc0 it st c hc]

theorem Item.enter_returned {i : Item} (c : Nat) (hc : c ≠ 0) : (i.enter c).returned ↔ i.returned := by
  cases i with
  | counter g st =>
    have h0 : (0 : Nat) ≠ c := fun h => hc h.symm
    simp only [Item.enter, Item.returned, Counter.step]
    split <;> simp [upd, h0]
  | ufunc it st => rfl

/-- `C`: whether the parts that need `Calm` are included. -/
structure Inv (C : Prop) (s : St) : Prop where
  held : ∀ t, (s.thread t).holds → s.lock = true
  uniq : ∀ t t', (s.thread t).holds → (s.thread t').holds → t = t'
  someone : s.lock = true → ∃ t, (s.thread t).holds
  range : ∀ t i, (s.thread t).idx = some i → 1 ≤ i ∧ i ≤ s.main
  dist : ∀ t t' i, (s.thread t).idx = some i → (s.thread t').idx = some i → t = t'
  reach : ∀ k, (s.slot k).Reach
  own : C → ∀ t i j, (s.thread t).filled = some (i, j) → s.main < i + RING → (s.slot (i % RING)).job = j
  fin : C → ∀ t i j, s.thread t = .finish i j → s.main < i + RING → (s.slot (i % RING)).returned

theorem inv_init (C : Prop) : Inv C init := by
  constructor <;> simp [init, Thread.holds, Thread.idx, Thread.filled]
  exact ⟨[], rfl⟩

theorem Thread.filled_idx {t : Thread} {i : Nat} {j : Job} (h : t.filled = some (i, j)) : t.idx = some i := by
  cases t <;> simp_all [Thread.filled, Thread.idx]

theorem idx_mod {i i' main : Nat} (h1 : i ≤ main) (h2 : i' ≤ main) (b1 : main < i + RING) (b2 : main < i' + RING)
    (h : i % RING = i' % RING) : i = i' := by
  simp only [RING] at *; omega

/-- A thread changes from one state to another, neither of which has to do with the lock or slots. -/
private theorem inv_thread {C : Prop} {s : St} (h : Inv C s) (t : Nat) (n : Thread) (hh : n.holds ↔ (s.thread t).holds)
    (hi : n.idx = none ∨ n.idx = (s.thread t).idx) (hf : n.filled = none ∨ n.filled = (s.thread t).filled)
    (hn : C → ∀ i j, n = .finish i j → s.main < i + RING → (s.slot (i % RING)).returned) (pi pd : Nat) :
    Inv C { s with thread := upd s.thread t n, poolIdx := pi, poolDone := pd } := by
  obtain ⟨a1, a2, a3, a4, a5, a6, a7, a8⟩ := h
  have hold : ∀ t', (upd s.thread t n t').holds ↔ (s.thread t').holds := by
    intro t'; by_cases e : t' = t
    · subst e; rw [upd_same]; exact hh
    · rw [upd_ne _ _ e]
  have hidx : ∀ t' i, (upd s.thread t n t').idx = some i → (s.thread t').idx = some i := by
    intro t' i; by_cases e : t' = t
    · subst e; rw [upd_same]; rcases hi with hi | hi <;> simp [hi]
    · rw [upd_ne _ _ e]; exact id
  have hfil : ∀ t' i, (upd s.thread t n t').filled = some i → (s.thread t').filled = some i := by
    intro t' i; by_cases e : t' = t
    · subst e; rw [upd_same]; rcases hf with hi | hi <;> simp [hi]
    · rw [upd_ne _ _ e]; exact id
  refine ⟨fun t' h => a1 t' ((hold t').mp h), fun t' t'' h h' => a2 _ _ ((hold _).mp h) ((hold _).mp h'), ?_,
    fun t' i h => a4 t' i (hidx _ _ h), fun t' t'' i h h' => a5 _ _ i (hidx _ _ h) (hidx _ _ h'), a6,
    fun c t' i j h => a7 c t' i j (hfil _ _ h), ?_⟩
  · intro hl; obtain ⟨t', h⟩ := a3 hl; exact ⟨t', (hold t').mpr h⟩
  · intro c t' i j h
    by_cases e : t' = t
    · subst e; simp only [upd_same] at h; exact hn c i j h
    · simp only [upd_ne _ _ e] at h; exact a8 c t' i j h

/-- A slot takes a step that does not concern its caller. -/
private theorem inv_slot {C : Prop} {s : St} (h : Inv C s) (k : Nat) (v : Item) (hr : v.Reach) (hj : v.job = (s.slot k).job)
    (hret : (s.slot k).returned → v.returned) (wk : Nat → Worker) : Inv C { s with slot := upd s.slot k v, worker := wk } := by
  obtain ⟨a1, a2, a3, a4, a5, a6, a7, a8⟩ := h
  refine ⟨a1, a2, a3, a4, a5, ?_, ?_, ?_⟩
  · intro k'; by_cases e : k' = k
    · subst e; simp only [upd_same]; exact hr
    · simp only [upd_ne _ _ e]; exact a6 k'
  · intro c t i j hf hb
    by_cases e : i % RING = k
    · subst e; simp only [upd_same, hj]; exact a7 c t i j hf hb
    · simp only [upd_ne _ _ e]; exact a7 c t i j hf hb
  · intro c t i j hf hb
    by_cases e : i % RING = k
    · subst e; simp only [upd_same]; exact hret (a8 c t i j hf hb)
    · simp only [upd_ne _ _ e]; exact a8 c t i j hf hb

theorem inv_step {C : Prop} {s : St} (h : Inv C s) (a : Act) (hC : C → Calm s) : Inv C (step s a) := by
  cases a with
  | start t lk j =>
    cases ht : s.thread t <;> simp only [step, ht] <;> try exact h
    exact inv_thread h t _ (by cases lk <;> simp [ht, Thread.holds]) (Or.inl (by cases lk <;> rfl))
      (Or.inl (by cases lk <;> rfl)) (by cases lk <;> simp) _ _
  | giveUp t =>
    cases ht : s.thread t <;> simp only [step, ht] <;> try exact h
    exact inv_thread h t _ (by simp [ht, Thread.holds]) (Or.inl rfl) (Or.inl rfl) (by simp) _ _
  | worker w =>
    by_cases hw : w = 0
    · simp only [step, if_pos hw]; exact h
    simp only [step, if_neg hw]
    cases hwk : s.worker w with
    | top => exact ⟨h.1, h.2, h.3, h.4, h.5, h.6, h.7, h.8⟩
    | cmp wi => exact ⟨h.1, h.2, h.3, h.4, h.5, h.6, h.7, h.8⟩
    | look =>
      simp only
      split
      · exact inv_slot h _ _ (Item.enter_reach (h.reach _) w) (Item.enter_job _ _) (Item.enter_returned w hw).mpr _
      · exact ⟨h.1, h.2, h.3, h.4, h.5, h.6, h.7, h.8⟩
    | item k =>
      exact inv_slot h _ _ (Item.go_reach (h.reach _) w) (Item.go_job _ _) (Item.go_returned w hw).mpr _
  | thread t =>
    cases ht : s.thread t with
    | idle => simp only [step, ht]; exact h
    | serial j =>
      simp only [step, ht]
      exact inv_thread h t _ (by simp [ht, Thread.holds]) (Or.inl rfl) (Or.inl rfl) (by simp) _ _
    | finish i j =>
      simp only [step, ht]
      exact inv_thread h t _ (by simp [ht, Thread.holds]) (Or.inl rfl) (Or.inl rfl) (by simp) _ _
    | publish i j =>
      simp only [step, ht]
      exact inv_thread h t _ (by simp [ht, Thread.holds]) (Or.inr (by rw [ht]; rfl)) (Or.inr (by rw [ht]; rfl)) (by simp) _ _
    | want j =>
      simp only [step, ht]
      split
      · exact inv_thread h t _ (by simp [ht, Thread.holds]) (Or.inl rfl) (Or.inl rfl) (by simp) _ _
      · rename_i hl
        obtain ⟨a1, a2, a3, a4, a5, a6, a7, a8⟩ := h
        have no : ∀ t', ¬ (s.thread t').holds := fun t' h => hl (a1 t' h)
        have eqt : ∀ t', (upd s.thread t (.take true j) t').holds → t' = t := by
          intro t' h; by_cases e : t' = t
          · exact e
          · rw [upd_ne _ _ e] at h; exact absurd h (no t')
        have idx : ∀ t', (upd s.thread t (.take true j) t').idx = if t' = t then none else (s.thread t').idx := by
          intro t'; by_cases e : t' = t <;> simp [upd, e, Thread.idx]
        refine ⟨fun _ _ => rfl, fun t' t'' h h' => (eqt _ h).trans (eqt _ h').symm, fun _ => ⟨t, by simp [upd, Thread.holds]⟩,
          ?_, ?_, a6, ?_, ?_⟩
        · intro t' i h; simp only [idx] at h; split at h
          · simp at h
          · exact a4 t' i h
        · intro t' t'' i h h'; simp only [idx] at h h'; split at h <;> split at h' <;> simp_all
          exact a5 t' t'' i h h'
        · intro c t' i j' h; by_cases e : t' = t
          · subst e; simp [upd, Thread.filled] at h
          · simp only [upd_ne _ _ e] at h; exact a7 c t' i j' h
        · intro c t' i j' h; by_cases e : t' = t
          · subst e; simp [upd] at h
          · simp only [upd_ne _ _ e] at h; exact a8 c t' i j' h
    | take lk j =>
      simp only [step, ht]
      obtain ⟨a1, a2, a3, a4, a5, a6, a7, a8⟩ := h
      have hold : ∀ t', (upd s.thread t (.got lk (s.main + 1) j) t').holds ↔ (s.thread t').holds := by
        intro t'; by_cases e : t' = t
        · subst e; rw [upd_same, ht]; rfl
        · rw [upd_ne _ _ e]
      refine ⟨fun t' h => a1 t' ((hold t').mp h), fun t' t'' h h' => a2 _ _ ((hold _).mp h) ((hold _).mp h'), ?_, ?_, ?_, a6, ?_, ?_⟩
      · intro hl; obtain ⟨t', h⟩ := a3 hl; exact ⟨t', (hold t').mpr h⟩
      · intro t' i h; by_cases e : t' = t
        · subst e; simp [upd, Thread.idx] at h; subst h; exact ⟨by omega, Nat.le_refl _⟩
        · simp only [upd_ne _ _ e] at h; have := a4 t' i h; exact ⟨this.1, by simp only; omega⟩
      · intro t' t'' i h h'
        by_cases e : t' = t <;> by_cases e' : t'' = t
        · rw [e, e']
        · subst e; simp [upd, Thread.idx] at h; simp only [upd_ne _ _ e'] at h'
          have := a4 t'' i h'; omega
        · subst e'; simp [upd, Thread.idx] at h'; simp only [upd_ne _ _ e] at h
          have := a4 t' i h; omega
        · simp only [upd_ne _ _ e] at h; simp only [upd_ne _ _ e'] at h'; exact a5 t' t'' i h h'
      · intro c t' i j' h hb; simp only at hb; by_cases e : t' = t
        · subst e; simp [upd, Thread.filled] at h
        · simp only [upd_ne _ _ e] at h; exact a7 c t' i j' h (by omega)
      · intro c t' i j' h hb; simp only at hb; by_cases e : t' = t
        · subst e; simp [upd] at h
        · simp only [upd_ne _ _ e] at h; exact a8 c t' i j' h (by omega)
    | got lk i j =>
      simp only [step, ht]
      obtain ⟨a1, a2, a3, a4, a5, a6, a7, a8⟩ := h
      have idx : ∀ t', (upd s.thread t (.fill i j) t').idx = (s.thread t').idx := by
        intro t'; by_cases e : t' = t
        · subst e; rw [upd_same, ht]; rfl
        · rw [upd_ne _ _ e]
      have old : ∀ t', (upd s.thread t (.fill i j) t').holds → t' ≠ t ∧ (s.thread t').holds := by
        intro t' h; by_cases e : t' = t
        · subst e; simp [upd, Thread.holds] at h
        · rw [upd_ne _ _ e] at h; exact ⟨e, h⟩
      refine ⟨?_, fun t' t'' h h' => a2 _ _ (old _ h).2 (old _ h').2, ?_, fun t' i' h => a4 t' i' (by rw [← idx]; exact h),
        fun t' t'' i' h h' => a5 t' t'' i' (by rw [← idx]; exact h) (by rw [← idx]; exact h'), a6, ?_, ?_⟩
      · intro t' h
        obtain ⟨e, h'⟩ := old t' h
        cases lk with
        | true => exact absurd (a2 t' t h' (by rw [ht]; rfl)) e
        | false => exact a1 t' h'
      · intro hl
        cases lk with
        | true => simp at hl
        | false =>
          obtain ⟨t', h⟩ := a3 (by simpa using hl)
          have e : t' ≠ t := by rintro rfl; rw [ht] at h; simp [Thread.holds] at h
          exact ⟨t', by simp only [upd_ne _ _ e]; exact h⟩
      · intro c t' i' j' h; by_cases e : t' = t
        · subst e; simp [upd, Thread.filled] at h
        · simp only [upd_ne _ _ e] at h; exact a7 c t' i' j' h
      · intro c t' i' j' h; by_cases e : t' = t
        · subst e; simp [upd] at h
        · simp only [upd_ne _ _ e] at h; exact a8 c t' i' j' h
    | fill i j =>
      simp only [step, ht]
      obtain ⟨a1, a2, a3, a4, a5, a6, a7, a8⟩ := h
      have hold : ∀ t', (upd s.thread t (.publish i j) t').holds ↔ (s.thread t').holds := by
        intro t'; by_cases e : t' = t
        · subst e; rw [upd_same, ht]; rfl
        · rw [upd_ne _ _ e]
      have idx : ∀ t', (upd s.thread t (.publish i j) t').idx = (s.thread t').idx := by
        intro t'; by_cases e : t' = t
        · subst e; rw [upd_same, ht]; rfl
        · rw [upd_ne _ _ e]
      have hi : (s.thread t).idx = some i := by rw [ht]; rfl
      have other : C → ∀ t' i', t' ≠ t → (s.thread t').idx = some i' → s.main < i' + RING → i' % RING ≠ i % RING := by
        intro c t' i' hne h hb e
        have b0 := hC c t i hi
        have b1 := a4 t i hi
        have b2 := a4 t' i' h
        have : i' = i := idx_mod b2.2 b1.2 hb b0 e
        exact hne (a5 t' t i (this ▸ h) hi)
      refine ⟨fun t' h => a1 t' ((hold t').mp h), fun t' t'' h h' => a2 _ _ ((hold _).mp h) ((hold _).mp h'), ?_,
        fun t' i' h => a4 t' i' (by rw [← idx]; exact h),
        fun t' t'' i' h h' => a5 t' t'' i' (by rw [← idx]; exact h) (by rw [← idx]; exact h'), ?_, ?_, ?_⟩
      · intro hl; obtain ⟨t', h⟩ := a3 hl; exact ⟨t', (hold t').mpr h⟩
      · intro k; by_cases e : k = i % RING
        · subst e; simp only [upd_same]; exact Job.fresh_reach j
        · simp only [upd_ne _ _ e]; exact a6 k
      · intro c t' i' j' h hb; by_cases e : t' = t
        · subst e; simp [upd, Thread.filled] at h; obtain ⟨rfl, rfl⟩ := h
          simp only [upd_same]; exact Job.fresh_job _
        · simp only [upd_ne _ _ e] at h
          simp only [upd_ne _ _ (other c t' i' e (Thread.filled_idx h) hb)]
          exact a7 c t' i' j' h hb
      · intro c t' i' j' h hb; by_cases e : t' = t
        · subst e; simp [upd] at h
        · simp only [upd_ne _ _ e] at h
          simp only [upd_ne _ _ (other c t' i' e (by rw [h]; rfl) hb)]
          exact a8 c t' i' j' h hb
    | inCall i j =>
      simp only [step, ht]
      split
      · rename_i hr
        exact inv_thread h t _ (by simp [ht, Thread.holds]) (Or.inr (by rw [ht]; rfl)) (Or.inr (by rw [ht]; rfl))
          (by intro _ i' j' e; cases e; exact fun _ => hr) _ _
      · rename_i hr
        exact inv_slot h _ _ (Item.go_reach (h.reach _) 0) (Item.go_job _ _) (fun x => absurd x hr) _

theorem exec_snoc (l : List Act) (a : Act) : exec (l ++ [a]) = step (exec l) a := by
  simp [exec, List.foldl_append]

theorem inv_exec (C : Prop) (l : List Act) (hC : C → CalmHistory l) : Inv C (exec l) := by
  induction l using List.reverseRecOn with
  | nil => exact inv_init C
  | append_singleton l a ih =>
    rw [exec_snoc]
    exact inv_step (ih fun c p hp => hC c p (hp.trans (List.prefix_append _ _))) a fun c => hC c l (List.prefix_append _ _)

end Pnumpy.Callers
