import Verif.Proofs.Callers
import Verif.Props.Work
/-
Progress in `Verif.Model.Callers`: operations of several threads come to an end.
-/
namespace Pnumpy.Callers
open Pnumpy.Work (upd)

/-- Thread `c` of the item is between claiming and completing a block. -/
def Item.busy (c : Nat) : Item → Bool
  | .counter _ st => (st.pc c).busy
  | .ufunc _ st => (st.pc c).busy

/-- A worker in the middle of a block is inside that item. -/
def BusyIn (s : St) : Prop := ∀ k c, c ≠ 0 → (s.slot k).busy c = true → s.worker c = .item k

theorem Item.go_other_busy (i : Item) {c d : Nat} (h : d ≠ c) : (i.go c).busy d = i.busy d := by
  cases i with
  | counter g st => simp only [Item.go, Item.busy, Counter.step_other g st h (.go c) (Or.inl rfl)]
  | ufunc it st => simp only [Item.go, Item.busy, Work.step_other it st h]

theorem Item.enter_busy (i : Item) (c d : Nat) : (i.enter c).busy d = i.busy d := by
  cases i with
  | counter g st =>
    by_cases h : d = c
    · subst h
      simp only [Item.enter, Item.busy, Counter.step]
      split
      · rename_i hp; simp [upd, hp.1, Counter.PC.busy]
      · rfl
    · simp only [Item.enter, Item.busy, Counter.step_other g st h (.wake c) (Or.inr rfl)]
  | ufunc it st => rfl

theorem Item.leave_busy (i : Item) {c : Nat} (hc : c ≠ 0) (h : i.leaving c = true) : (i.go c).busy c = false := by
  cases i with
  | counter g st =>
    simp only [Item.leaving] at h
    split at h
    · rename_i d hp
      simp only [Item.go, Item.busy, Counter.step, hp]
      split
      · rw [hp]; rfl
      · simp only [upd, if_true, if_neg hc]; split <;> rfl
    · cases h
  | ufunc it st =>
    simp only [Item.leaving, beq_iff_eq] at h
    simp only [Item.go, Item.busy, Work.step, h]
    split
    · rw [h]; rfl
    · simp only [upd, if_true, if_neg hc]; rfl

theorem Job.fresh_busy (j : Job) {c : Nat} (hc : c ≠ 0) : j.fresh.busy c = false := by
  cases j <;> simp [Job.fresh, Item.busy, Counter.init, Work.init, hc, Counter.PC.busy, Work.PC.busy]

theorem busyIn_init : BusyIn init := by
  intro k c hc h
  simp [init, Item.busy, Counter.init, hc, Counter.PC.busy] at h

theorem busyIn_slot {s : St} (h : BusyIn s) (k : Nat) (v : Item) (hv : ∀ c, c ≠ 0 → v.busy c = true → (s.slot k).busy c = true)
    (th : Nat → Thread) : BusyIn { s with slot := upd s.slot k v, thread := th } := by
  intro k' c hc hb
  simp only at hb ⊢
  by_cases e : k' = k
  · subst e; rw [upd_same] at hb; exact h _ c hc (hv c hc hb)
  · rw [upd_ne _ _ e] at hb; exact h k' c hc hb

theorem busyIn_step {s : St} (h : BusyIn s) (a : Act) : BusyIn (step s a) := by
  cases a with
  | start t lock j => simp only [step]; split <;> exact h
  | giveUp t => simp only [step]; split <;> exact h
  | thread t =>
    simp only [step]
    split
    · exact h
    · split <;> exact h
    · exact h
    · exact h
    · rename_i i j _
      refine busyIn_slot h _ _ (fun c hc hb => ?_) _
      rw [Job.fresh_busy j hc] at hb; cases hb
    · exact h
    · split
      · exact h
      · exact busyIn_slot h _ _ (fun c hc hb => by rw [Item.go_other_busy _ hc] at hb; exact hb) _
    · exact h
    · exact h
  | worker w =>
    simp only [step]
    split
    · exact h
    rename_i hw
    have out : ∀ x, (∀ k, s.worker w ≠ .item k) → BusyIn { s with worker := upd s.worker w x } := by
      intro x hx k c hc hb
      have := h k c hc hb
      by_cases e : c = w
      · subst e; exact absurd this (hx k)
      · simp only [upd_ne _ _ e]; exact this
    split
    · rename_i e; exact out _ (by rw [e]; simp)
    · rename_i e; exact out _ (by rw [e]; simp)
    · rename_i e
      split
      · intro k c hc hb
        simp only at hb ⊢
        have hb : (s.slot k).busy c = true := by
          by_cases ek : k = s.main % RING
          · subst ek; rw [upd_same, Item.enter_busy] at hb; exact hb
          · rw [upd_ne _ _ ek] at hb; exact hb
        have := h k c hc hb
        by_cases ec : c = w
        · subst ec; rw [e] at this; cases this
        · rw [upd_ne _ _ ec]; exact this
      · exact out _ (by rw [e]; simp)
    · rename_i k0 e
      intro k c hc hb
      simp only at hb ⊢
      by_cases ec : c = w
      · subst ec
        rw [upd_same]
        by_cases ek : k = k0
        · subst ek
          rw [upd_same] at hb
          split
          · rename_i hl; rw [Item.leave_busy _ hw hl] at hb; cases hb
          · rfl
        · rw [upd_ne _ _ ek] at hb
          have := h k c hc hb
          rw [e] at this; cases this; exact absurd rfl ek
      · rw [upd_ne _ _ ec]
        by_cases ek : k = k0
        · subst ek; rw [upd_same, Item.go_other_busy _ ec] at hb; exact h k c hc hb
        · rw [upd_ne _ _ ek] at hb; exact h k c hc hb

/-! ### Infinite runs -/

theorem states_exec (σ : Nat → Act) (n : Nat) : states σ n = exec ((List.range n).map σ) := by
  induction n with
  | zero => rfl
  | succ n ih => rw [states, ih, List.range_succ, List.map_append, List.map_singleton, exec_snoc]

theorem busyIn_states (σ : Nat → Act) (n : Nat) : BusyIn (states σ n) := by
  induction n with
  | zero => exact busyIn_init
  | succ n ih => exact busyIn_step ih _

theorem inv_states (σ : Nat → Act) (hC : ∀ n, Calm (states σ n)) (n : Nat) : Inv True (states σ n) := by
  induction n with
  | zero => exact inv_init _
  | succ n ih => exact inv_step ih _ fun _ => hC n

/-- What a step does to thread `t`. -/
theorem thread_other (s : St) (a : Act) (t : Nat) (ha : a ≠ .thread t) (hi : s.thread t ≠ .idle) :
    (step s a).thread t = s.thread t ∨ (step s a).thread t = .idle := by
  cases a with
  | start t' lock j =>
    by_cases e : t = t'
    · subst e; left
      cases hx : s.thread t with
      | idle => exact absurd hx hi
      | _ => simp only [step, hx]
    · simp only [step]; split <;> simp [upd, e]
  | giveUp t' =>
    by_cases e : t = t'
    · subst e; simp only [step]; split <;> simp [upd]
    · simp only [step]; split <;> simp [upd, e]
  | thread t' =>
    have e : t ≠ t' := fun e => ha (by rw [e])
    left
    simp only [step]
    split
    · rfl
    · split <;> simp [upd, e]
    · simp [upd, e]
    · simp [upd, e]
    · simp [upd, e]
    · simp [upd, e]
    · split <;> simp [upd, e]
    · simp [upd, e]
    · simp [upd, e]
  | worker w =>
    left
    simp only [step]
    split
    · rfl
    split
    · rfl
    · rfl
    · split <;> rfl
    · rfl

theorem thread_keep (s : St) (t t' : Nat) (e : t ≠ t') : (step s (.thread t')).thread t = s.thread t := by
  simp only [step]
  split
  · rfl
  · split <;> simp [upd, e]
  · simp [upd, e]
  · simp [upd, e]
  · simp [upd, e]
  · simp [upd, e]
  · split <;> simp [upd, e]
  · simp [upd, e]
  · simp [upd, e]

theorem thread_worker (s : St) (w t : Nat) : (step s (.worker w)).thread t = s.thread t := by
  simp only [step]
  split
  · rfl
  split
  · rfl
  · rfl
  · split <;> rfl
  · rfl

theorem worker_other (s : St) (a : Act) (w : Nat) (ha : a ≠ .worker w) : (step s a).worker w = s.worker w := by
  cases a with
  | start t' lock j => simp only [step]; split <;> rfl
  | giveUp t' => simp only [step]; split <;> rfl
  | thread t' =>
    simp only [step]
    split
    · rfl
    · split <;> rfl
    · rfl
    · rfl
    · rfl
    · rfl
    · split <;> rfl
    · rfl
    · rfl
  | worker w' =>
    have e : w ≠ w' := fun e => ha (by rw [e])
    simp only [step]
    split
    · rfl
    split
    · simp [upd, e]
    · simp [upd, e]
    · split <;> simp [upd, e]
    · simp [upd, e]

/-- The step of the item in slot `k` of thread `t`'s operation. -/
theorem slot_step {s : St} (hC : Calm s) (h : Inv True s) (t i : Nat) (j : Job) (ht : s.thread t = .inCall i j) (a : Act) :
    ((step s a).slot (i % RING) = s.slot (i % RING) ∧ (a = .thread t → (s.slot (i % RING)).returned) ∧
        (∀ w, w ≠ 0 → a = .worker w → s.worker w ≠ .item (i % RING))) ∨
    ((step s a).slot (i % RING) = (s.slot (i % RING)).go 0 ∧ a = .thread t) ∨
    (∃ w, w ≠ 0 ∧ (step s a).slot (i % RING) = (s.slot (i % RING)).go w ∧ a = .worker w) ∨
    (∃ w, w ≠ 0 ∧ (step s a).slot (i % RING) = (s.slot (i % RING)).enter w ∧ a = .worker w ∧ s.worker w ≠ .item (i % RING)) := by
  have other : ∀ t' i', t' ≠ t → (s.thread t').idx = some i' → i' % RING ≠ i % RING := by
    intro t' i' hne hi' e
    have hi : (s.thread t).idx = some i := by rw [ht]; rfl
    have : i' = i := idx_mod (h.range _ _ hi').2 (h.range _ _ hi).2 (hC _ _ hi') (hC _ _ hi) e
    exact hne (h.dist t' t i (this ▸ hi') hi)
  cases a with
  | start t' lock j' =>
    left; refine ⟨?_, by simp, by simp⟩
    simp only [step]; split <;> rfl
  | giveUp t' =>
    left; refine ⟨?_, by simp, by simp⟩
    simp only [step]; split <;> rfl
  | thread t' =>
    by_cases e : t' = t
    · subst e
      by_cases hr : (s.slot (i % RING)).returned
      · left; refine ⟨?_, fun _ => hr, by simp⟩
        simp only [step, ht, if_pos hr]
      · right; left
        simp only [step, ht, if_neg hr, upd_same, and_self]
    · left
      refine ⟨?_, fun he => absurd (Act.thread.inj he) e, by simp⟩
      have ot := other t'
      cases hx : s.thread t' with
      | idle => simp only [step, hx]
      | want j => simp only [step, hx]; split <;> rfl
      | take lk j => simp only [step, hx]
      | got lk i j => simp only [step, hx]
      | fill i' j' =>
        simp only [step, hx]
        rw [upd_ne _ _ (Ne.symm (ot i' e (by rw [hx]; rfl)))]
      | publish i j => simp only [step, hx]
      | inCall i' j' =>
        simp only [step, hx]
        split
        · rfl
        · simp only
          rw [upd_ne _ _ (Ne.symm (ot i' e (by rw [hx]; rfl)))]
      | finish i j => simp only [step, hx]
      | serial j => simp only [step, hx]
  | worker w =>
    by_cases hw : w = 0
    · left; refine ⟨by simp only [step, if_pos hw], by simp, fun w' h0 e => ?_⟩
      exact absurd (Act.worker.inj e ▸ hw) h0
    · have one : ∀ P : Nat → Prop, P w → ∀ w', w' ≠ 0 → Act.worker w = .worker w' → P w' := fun P hP w' _ e => Act.worker.inj e ▸ hP
      cases hx : s.worker w with
      | top =>
        left; refine ⟨by simp only [step, if_neg hw, hx], by simp, one _ (by rw [hx]; simp)⟩
      | cmp wi =>
        left; refine ⟨by simp only [step, if_neg hw, hx], by simp, one _ (by rw [hx]; simp)⟩
      | look =>
        simp only [step, if_neg hw, hx]
        by_cases hk : w ≤ (s.slot (s.main % RING)).wakeup
        · simp only [if_pos hk]
          by_cases e : i % RING = s.main % RING
          · right; right; right
            refine ⟨w, hw, ?_, rfl, by rw [hx]; simp⟩
            rw [e, upd_same]
          · left
            refine ⟨by simp only [upd_ne _ _ e], by simp, one _ (by rw [hx]; simp)⟩
        · simp only [if_neg hk]
          left; exact ⟨trivial, by simp, one _ (by rw [hx]; simp)⟩
      | item k =>
        simp only [step, if_neg hw, hx]
        by_cases e : i % RING = k
        · right; right; left
          refine ⟨w, hw, ?_, rfl⟩
          rw [e, upd_same]
        · left
          refine ⟨by simp only [upd_ne _ _ e], by simp, one _ (by rw [hx]; simpa using Ne.symm e)⟩

/-! ### The run of one item inside a run of everything -/

/-- A run of a system from a reachable state on, as the end of a run from the beginning. -/
theorem replay {X A : Type} (f : X → A → X) (x0 : X) (tr : (Nat → A) → Nat → X) (h0 : ∀ τ, tr τ 0 = x0)
    (hs : ∀ τ n, tr τ (n + 1) = f (tr τ n) (τ n)) (l : List A) (y : Nat → X) (hy : y 0 = l.foldl f x0) (P : Nat → A → Prop)
    (hn : ∀ n, ∃ a, y (n + 1) = f (y n) a ∧ P n a) :
    ∃ τ, (∀ n, tr τ (l.length + n) = y n) ∧ (∀ n, P n (τ (l.length + n))) := by
  choose a ha hP using hn
  let τ : Nat → A := fun m => if h : m < l.length then l[m] else a (m - l.length)
  have pre : ∀ m, m ≤ l.length → tr τ m = (l.take m).foldl f x0 := by
    intro m
    induction m with
    | zero => intro _; simp [h0]
    | succ m ih =>
      intro hm
      rw [hs, ih (by omega), List.take_add_one, List.foldl_append]
      have : τ m = l[m] := dif_pos (by omega)
      rw [this, List.getElem?_eq_getElem (by omega)]
      rfl
  have eτ : ∀ n, τ (l.length + n) = a n := fun n => by
    show (if h : _ then _ else _) = _
    rw [dif_neg (by omega), Nat.add_sub_cancel_left]
  refine ⟨τ, fun n => ?_, fun n => by rw [eτ]; exact hP n⟩
  induction n with
  | zero => rw [Nat.add_zero, pre _ (Nat.le_refl _), List.take_length, hy]
  | succ n ih => rw [← Nat.add_assoc, hs, ih, eτ, ha]

/-- From `inCall` on, as long as the barrier is not passed, thread `t` stays where it is. -/
theorem stays_inCall (σ : Nat → Act) (t i : Nat) (j : Job) (n0 : Nat) (h : (states σ n0).thread t = .inCall i j)
    (hnr : ∀ m, (states σ (n0 + m)).thread t = .inCall i j → ¬ ((states σ (n0 + m)).slot (i % RING)).returned) :
    ∀ m, (states σ (n0 + m)).thread t = .inCall i j := by
  intro m
  induction m with
  | zero => exact h
  | succ m ih =>
    rw [← Nat.add_assoc, states]
    by_cases e : σ (n0 + m) = .thread t
    · rw [e]; simp only [step, ih, if_neg (hnr m ih)]
    · cases hx : σ (n0 + m) with
      | thread t' =>
        rcases thread_other (states σ (n0 + m)) (.thread t') t (by rw [← hx]; exact e) (by rw [ih]; simp) with h' | h'
        · rw [h', ih]
        · have ne : t ≠ t' := fun e' => e (by rw [hx, e'])
          exfalso
          have := thread_keep (states σ (n0 + m)) t t' ne
          rw [this, ih] at h'; cases h'
      | start t' lk j' =>
        simp only [step]
        split
        · rename_i hi
          have ne : t ≠ t' := by rintro rfl; rw [ih] at hi; cases hi
          simp only [upd_ne _ _ ne]; exact ih
        · exact ih
      | giveUp t' =>
        simp only [step]
        split
        · rename_i hi
          have ne : t ≠ t' := by rintro rfl; rw [ih] at hi; cases hi
          simp only [upd_ne _ _ ne]; exact ih
        · exact ih
      | worker w => rw [thread_worker]; exact ih

/-- The worker is inside slot `k` until its next step. -/
theorem next_worker (σ : Nat → Act) (w n k : Nat) (h : (states σ n).worker w = .item k) (hf : ∃ n', n ≤ n' ∧ σ n' = .worker w) :
    ∃ n', n ≤ n' ∧ σ n' = .worker w ∧ (states σ n').worker w = .item k := by
  obtain ⟨n', hle, hσ⟩ := hf
  obtain ⟨d, rfl⟩ := Nat.exists_eq_add_of_le hle
  clear hle
  induction d generalizing n with
  | zero => exact ⟨n, Nat.le_refl _, hσ, h⟩
  | succ d ih =>
    by_cases e : σ n = .worker w
    · exact ⟨n, Nat.le_refl _, e, h⟩
    · have h1 : (states σ (n + 1)).worker w = .item k := by rw [states, worker_other _ _ _ e]; exact h
      obtain ⟨n', a, b, c⟩ := ih (n + 1) h1 (by rw [Nat.add_right_comm, Nat.add_assoc]; exact hσ)
      exact ⟨n', by omega, b, c⟩

end Pnumpy.Callers
