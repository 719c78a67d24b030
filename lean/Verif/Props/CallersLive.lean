import Verif.Proofs.CallersLive
import Verif.Props.Callers
import Mathlib.Data.Nat.Sqrt
/-
Property theorems C94: operations of several threads, some of which fail for lack of memory, come to an end.
-/
namespace Pnumpy.Props
open Pnumpy.Callers Pnumpy.Spec
open Pnumpy.Work (upd)

theorem ufunc_returns (σ : Nat → Act) (hC : ∀ n, Calm (states σ n)) (hw : ∀ w n, w ≠ 0 → ∃ n', n ≤ n' ∧ σ n' = .worker w) (t : Nat)
    (hth : ∀ n, ∃ n', n ≤ n' ∧ σ n' = .thread t) (i n0 n : Nat) (req : Int) (maxWakeup zz : Nat)
    (h : (states σ n0).thread t = .inCall i (.ufunc (ufuncItem n req maxWakeup zz))) :
    ∃ m, (states σ (n0 + m)).thread t = .inCall i (.ufunc (ufuncItem n req maxWakeup zz)) ∧ ((states σ (n0 + m)).slot (i % RING)).returned := by
  generalize hit : ufuncItem n req maxWakeup zz = it at h ⊢
  by_contra hno
  have hnr : ∀ m, (states σ (n0 + m)).thread t = .inCall i (.ufunc it) → ¬ ((states σ (n0 + m)).slot (i % RING)).returned :=
    fun m h1 h2 => hno ⟨m, h1, h2⟩
  have stay := stays_inCall σ t i _ n0 h hnr
  have hslot : ∀ m, ∃ st, (states σ (n0 + m)).slot (i % RING) = .ufunc it st := by
    intro m
    have hj := (inv_states σ hC (n0 + m)).own trivial t i _ (by rw [stay m]; rfl) (hC _ t i (by rw [stay m]; rfl))
    cases hs : (states σ (n0 + m)).slot (i % RING) with
    | counter g st => rw [hs] at hj; simp [Item.job] at hj
    | ufunc it' st => rw [hs] at hj; simp only [Item.job, Job.ufunc.injEq] at hj; rw [hj]; exact ⟨st, rfl⟩
  choose y hy using hslot
  obtain ⟨l, hl⟩ : ∃ l, y 0 = Work.exec it l := by
    have := (inv_states σ hC (n0 + 0)).reach (i % RING)
    rw [hy 0] at this; exact this
  have hstep : ∀ m, ∃ c, y (m + 1) = Work.step it (y m) c ∧ ((σ (n0 + m) = .thread t → c = 0) ∧
      ∀ w, w ≠ 0 → σ (n0 + m) = .worker w → (states σ (n0 + m)).worker w = .item (i % RING) → c = w) := by
    intro m
    have e : (states σ (n0 + (m + 1))).slot (i % RING) = (step (states σ (n0 + m)) (σ (n0 + m))).slot (i % RING) := rfl
    have idle : ∀ s, Work.step it s (it.wakeup + 1) = s := fun s => by rw [Work.step, if_pos (by omega)]
    rcases slot_step (hC _) (inv_states σ hC (n0 + m)) t i _ (stay m) (σ (n0 + m)) with ⟨h1, h2, h3⟩ | ⟨h1, h2⟩ | ⟨w, h0, h1, h2⟩ | ⟨w, h0, h1, h2, h3⟩
    · rw [h1, hy, hy] at e
      refine ⟨it.wakeup + 1, by rw [idle]; injection e, fun he => absurd (h2 he) (hnr m (stay m)), fun w h0 he hi => absurd hi (h3 w h0 he)⟩
    · rw [h1, hy, hy] at e
      refine ⟨0, by injection e, fun _ => rfl, fun w _ he => by rw [h2] at he; cases he⟩
    · rw [h1, hy, hy] at e
      refine ⟨w, by injection e, (fun he => by rw [h2] at he; cases he), fun w' _ he _ => by rw [h2] at he; exact Act.worker.inj he⟩
    · rw [h1, hy, hy] at e
      refine ⟨it.wakeup + 1, by rw [idle]; injection e, (fun he => by rw [h2] at he; cases he), fun w' _ he hi => ?_⟩
      rw [h2] at he; cases he; exact absurd hi h3
  obtain ⟨τ, hτ, hP⟩ := replay (Work.step it) Work.init (Work.trace it) (fun _ => rfl) (fun _ _ => rfl) l y hl _ hstep
  have hcaller : ∀ T, ∃ T', T ≤ T' ∧ τ T' = 0 := by
    intro T
    obtain ⟨n', hle, he⟩ := hth (n0 + T)
    obtain ⟨m, rfl⟩ := Nat.exists_eq_add_of_le (Nat.le_trans (Nat.le_add_right n0 T) hle)
    exact ⟨l.length + m, by omega, (hP m).1 he⟩
  have late : ∀ m c, c ≠ 0 → ((y m).pc c).busy = true → ∃ T', l.length + m ≤ T' ∧ τ T' = c := by
    intro m c hc hb
    have hin := busyIn_states σ (n0 + m) (i % RING) c hc (by rw [hy]; exact hb)
    obtain ⟨n', hle, he, hi⟩ := next_worker σ c _ _ hin (hw c _ hc)
    obtain ⟨m', rfl⟩ := Nat.exists_eq_add_of_le (Nat.le_trans (Nat.le_add_right n0 m) hle)
    exact ⟨l.length + m', by omega, (hP m').2 c hc he hi⟩
  obtain ⟨T, hT⟩ := C03_progress n req maxWakeup zz τ hcaller (by
    rw [hit]
    intro T c hb
    by_cases hc : c = 0
    · rw [hc]; exact hcaller T
    have keep : ∀ d, (∃ T', T ≤ T' ∧ τ T' = c) ∨ (Work.trace it τ (T + d)).pc c = (Work.trace it τ T).pc c := by
      intro d
      induction d with
      | zero => exact Or.inr rfl
      | succ d ih =>
        rcases ih with h | h
        · exact Or.inl h
        · by_cases e : τ (T + d) = c
          · exact Or.inl ⟨T + d, by omega, e⟩
          · right; rw [← Nat.add_assoc, Work.trace, Work.step_other _ _ (Ne.symm e)]; exact h
    rcases keep (l.length + T - T) with h | h
    · exact h
    · rw [show T + (l.length + T - T) = l.length + T by omega, hτ] at h
      obtain ⟨T', h1, h2⟩ := late T c hc (by rw [h]; exact hb)
      exact ⟨T', by omega, h2⟩)
  rw [hit] at hT
  have stable : ∀ d, (Work.trace it τ (T + d)).pc 0 = .returned := by
    intro d
    induction d with
    | zero => exact hT
    | succ d ih =>
      rw [← Nat.add_assoc, Work.trace]
      by_cases e : τ (T + d) = 0
      · rw [e]; simp only [Work.step, ih, Nat.not_lt_zero, if_false]
      · rw [Work.step_other _ _ (Ne.symm e)]; exact ih
  have := stable l.length
  rw [Nat.add_comm, hτ] at this
  exact hnr T (stay T) (by rw [hy]; exact this)

theorem chunk_returns (σ : Nat → Act) (hC : ∀ n, Calm (states σ n)) (hw : ∀ w n, w ≠ 0 → ∃ n', n ≤ n' ∧ σ n' = .worker w) (t : Nat)
    (hth : ∀ n, ∃ n', n ≤ n' ∧ σ n' = .thread t) (i n0 n wakeup : Nat)
    (h : (states σ n0).thread t = .inCall i (.counter (chunkCfg n wakeup))) :
    ∃ m, (states σ (n0 + m)).thread t = .inCall i (.counter (chunkCfg n wakeup)) ∧ ((states σ (n0 + m)).slot (i % RING)).returned := by
  generalize hit : chunkCfg n wakeup = g at h ⊢
  by_contra hno
  have hnr : ∀ m, (states σ (n0 + m)).thread t = .inCall i (.counter g) → ¬ ((states σ (n0 + m)).slot (i % RING)).returned :=
    fun m h1 h2 => hno ⟨m, h1, h2⟩
  have stay := stays_inCall σ t i _ n0 h hnr
  have hslot : ∀ m, ∃ st, (states σ (n0 + m)).slot (i % RING) = .counter g st := by
    intro m
    have hj := (inv_states σ hC (n0 + m)).own trivial t i _ (by rw [stay m]; rfl) (hC _ t i (by rw [stay m]; rfl))
    cases hs : (states σ (n0 + m)).slot (i % RING) with
    | ufunc g st => rw [hs] at hj; simp [Item.job] at hj
    | counter it' st => rw [hs] at hj; simp only [Item.job, Job.counter.injEq] at hj; rw [hj]; exact ⟨st, rfl⟩
  choose y hy using hslot
  obtain ⟨l, hl⟩ : ∃ l, y 0 = Counter.exec g l := by
    have := (inv_states σ hC (n0 + 0)).reach (i % RING)
    rw [hy 0] at this; exact this
  have hstep : ∀ m, ∃ c, y (m + 1) = Counter.step g (y m) c ∧ ((σ (n0 + m) = .thread t → c = .go 0) ∧
      ∀ w, w ≠ 0 → σ (n0 + m) = .worker w → (states σ (n0 + m)).worker w = .item (i % RING) → c = .go w) := by
    intro m
    have e : (states σ (n0 + (m + 1))).slot (i % RING) = (step (states σ (n0 + m)) (σ (n0 + m))).slot (i % RING) := rfl
    have idle : ∀ s, Counter.step g s (.go (g.wakeup + 1)) = s := fun s => by simp only [Counter.step]; rw [if_pos (by omega)]
    rcases slot_step (hC _) (inv_states σ hC (n0 + m)) t i _ (stay m) (σ (n0 + m)) with ⟨h1, h2, h3⟩ | ⟨h1, h2⟩ | ⟨w, h0, h1, h2⟩ | ⟨w, h0, h1, h2, h3⟩
    · rw [h1, hy, hy] at e
      refine ⟨.go (g.wakeup + 1), by rw [idle]; injection e, fun he => absurd (h2 he) (hnr m (stay m)), fun w h0 he hi => absurd hi (h3 w h0 he)⟩
    · rw [h1, hy, hy] at e
      refine ⟨.go 0, by injection e, fun _ => rfl, fun w _ he => by rw [h2] at he; cases he⟩
    · rw [h1, hy, hy] at e
      refine ⟨.go w, by injection e, (fun he => by rw [h2] at he; cases he), fun w' _ he _ => by rw [h2] at he; rw [Act.worker.inj he]⟩
    · rw [h1, hy, hy] at e
      refine ⟨.wake w, by injection e, (fun he => by rw [h2] at he; cases he), fun w' _ he hi => ?_⟩
      rw [h2] at he; cases he; exact absurd hi h3
  obtain ⟨τ, hτ, hP⟩ := replay (Counter.step g) Counter.init (Counter.trace g) (fun _ => rfl) (fun _ _ => rfl) l y hl _ hstep
  have hcaller : ∀ T, ∃ T', T ≤ T' ∧ τ T' = .go 0 := by
    intro T
    obtain ⟨n', hle, he⟩ := hth (n0 + T)
    obtain ⟨m, rfl⟩ := Nat.exists_eq_add_of_le (Nat.le_trans (Nat.le_add_right n0 T) hle)
    exact ⟨l.length + m, by omega, (hP m).1 he⟩
  have late : ∀ m c, c ≠ 0 → ((y m).pc c).busy = true → ∃ T', l.length + m ≤ T' ∧ τ T' = .go c := by
    intro m c hc hb
    have hin := busyIn_states σ (n0 + m) (i % RING) c hc (by rw [hy]; exact hb)
    obtain ⟨n', hle, he, hi⟩ := next_worker σ c _ _ hin (hw c _ hc)
    obtain ⟨m', rfl⟩ := Nat.exists_eq_add_of_le (Nat.le_trans (Nat.le_add_right n0 m) hle)
    exact ⟨l.length + m', by omega, (hP m').2 c hc he hi⟩
  -- a step other than `go c` leaves a busy thread where it is
  have other : ∀ s a c, ((s : Counter.St).pc c).busy = true → a ≠ .go c → (Counter.step g s a).pc c = s.pc c := by
    intro s a c hb ha
    cases a with
    | go d => exact Counter.step_other g s (fun e => ha (by rw [e])) (.go d) (Or.inl rfl)
    | wake d =>
      by_cases e : c = d
      · subst e
        simp only [Counter.step]
        split
        · rename_i hp; rw [hp.1] at hb; cases hb
        · rfl
      · exact Counter.step_other g s e (.wake d) (Or.inr rfl)
  obtain ⟨T, hT⟩ := C04_chunk_progress ((n + 16383) / 16384) wakeup τ ⟨hcaller, by
    have hit' : ({ n := (n + 16383) / 16384, skip0 := false, wakeup } : Counter.Cfg) = g := hit
    rw [hit']
    intro T c hb
    by_cases hc : c = 0
    · rw [hc]; exact hcaller T
    have keep : ∀ d, (∃ T', T ≤ T' ∧ τ T' = .go c) ∨ (Counter.trace g τ (T + d)).pc c = (Counter.trace g τ T).pc c := by
      intro d
      induction d with
      | zero => exact Or.inr rfl
      | succ d ih =>
        rcases ih with h | h
        · exact Or.inl h
        · by_cases e : τ (T + d) = .go c
          · exact Or.inl ⟨T + d, by omega, e⟩
          · right; rw [← Nat.add_assoc, Counter.trace, other _ _ _ (by rw [h]; exact hb) e]; exact h
    rcases keep (l.length + T - T) with h | h
    · exact h
    · rw [show T + (l.length + T - T) = l.length + T by omega, hτ] at h
      obtain ⟨T', h1, h2⟩ := late T c hc (by rw [h]; exact hb)
      exact ⟨T', by omega, h2⟩⟩
  have hit' : ({ n := (n + 16383) / 16384, skip0 := false, wakeup } : Counter.Cfg) = g := hit
  rw [hit'] at hT
  have stable : ∀ d, (Counter.trace g τ (T + d)).pc 0 = .returned := by
    intro d
    induction d with
    | zero => exact hT
    | succ d ih =>
      rw [← Nat.add_assoc, Counter.trace]
      cases ha : τ (T + d) with
      | go c =>
        by_cases e : c = 0
        · rw [e]; simp only [Counter.step, ih, Nat.not_lt_zero, if_false]
        · rw [Counter.step_other g _ (Ne.symm e) (.go c) (Or.inl rfl)]; exact ih
      | wake c =>
        simp only [Counter.step]
        split
        · rename_i hp; simp only [upd, if_neg (Ne.symm hp.2)]; exact ih
        · exact ih
  have := stable l.length
  rw [Nat.add_comm, hτ] at this
  exact hnr T (stay T) (by rw [hy]; exact this)

/-- How far a thread is from the end of its operation, counting the barrier as one step. -/
def rank : Thread → Nat
  | .idle => 0
  | .finish _ _ => 1
  | .serial _ => 1
  | .inCall _ _ => 2
  | .publish _ _ => 3
  | .fill _ _ => 4
  | .got _ _ _ => 5
  | .take _ _ => 6
  | .want _ => 7

/-- The next step of the thread itself is the first one that moves it on, unless its operation is over. -/
theorem next_own (σ : Nat → Act) (t n : Nat) (hi : (states σ n).thread t ≠ .idle) (hth : ∃ n', n ≤ n' ∧ σ n' = .thread t) :
    ∃ n', n ≤ n' ∧ ((states σ n').thread t = .idle ∨ ((states σ n').thread t = (states σ n).thread t ∧ σ n' = .thread t)) := by
  obtain ⟨n', hle, he⟩ := hth
  obtain ⟨d, rfl⟩ := Nat.exists_eq_add_of_le hle
  clear hle
  induction d generalizing n with
  | zero => exact ⟨n, Nat.le_refl _, Or.inr ⟨rfl, he⟩⟩
  | succ d ih =>
    by_cases e : σ n = .thread t
    · exact ⟨n, Nat.le_refl _, Or.inr ⟨rfl, e⟩⟩
    · rcases thread_other (states σ n) (σ n) t e hi with h | h
      · have h' : (states σ (n + 1)).thread t = (states σ n).thread t := h
        obtain ⟨n', a, b⟩ := ih (n + 1) (by rw [h']; exact hi) (by rw [Nat.add_right_comm, Nat.add_assoc]; exact he)
        exact ⟨n', by omega, by rw [h'] at b; exact b⟩
      · exact ⟨n + 1, by omega, Or.inl h⟩

theorem returned_keeps {s : St} (hC : Calm s) (h : Inv True s) {t i : Nat} {j : Job} (ht : s.thread t = .inCall i j)
    (hr : (s.slot (i % RING)).returned) {a : Act} (ha : a ≠ .thread t) : ((step s a).slot (i % RING)).returned := by
  rcases slot_step hC h t i j ht a with ⟨h1, _⟩ | ⟨_, h2⟩ | ⟨w, h0, h1, _⟩ | ⟨w, h0, h1, _⟩
  · rw [h1]; exact hr
  · exact absurd h2 ha
  · rw [h1]; exact (Item.go_returned w h0).mpr hr
  · rw [h1]; exact (Item.enter_returned w h0).mpr hr

theorem ends_of_barrier_from (σ : Nat → Act) (hC : ∀ n, Calm (states σ n)) (t : Nat) (hth : ∀ n, ∃ n', n ≤ n' ∧ σ n' = .thread t) (j : Job) (m0 : Nat)
    (hb : ∀ i n0, m0 ≤ n0 → (states σ n0).thread t = .inCall i j →
      ∃ m, (states σ (n0 + m)).thread t = .inCall i j ∧ ((states σ (n0 + m)).slot (i % RING)).returned) :
    ∀ r n, m0 ≤ n → rank ((states σ n).thread t) = r → (∀ j', ((states σ n).thread t).job = some j' → j' = j) →
      ∃ n', n ≤ n' ∧ (states σ n').thread t = .idle := by
  intro r
  induction r using Nat.strongRecOn with
  | _ r ih =>
    intro n hm0 hr hj
    by_cases hi : (states σ n).thread t = .idle
    · exact ⟨n, Nat.le_refl _, hi⟩
    -- a moment at which the thread is in the same state, takes its next step, and (in the call) is past the barrier
    have key : ∃ n', n ≤ n' ∧ ((states σ n').thread t = .idle ∨ ((states σ n').thread t = (states σ n).thread t ∧ σ n' = .thread t ∧
        ∀ i j', (states σ n').thread t = .inCall i j' → ((states σ n').slot (i % RING)).returned)) := by
      by_cases hin : ∃ i, (states σ n).thread t = .inCall i j
      · obtain ⟨i, hin⟩ := hin
        obtain ⟨m, h1, h2⟩ := hb i n hm0 hin
        -- the barrier stays passed until the thread's next step
        obtain ⟨n', hle, he⟩ := hth (n + m)
        obtain ⟨d, rfl⟩ := Nat.exists_eq_add_of_le hle
        clear hle
        have : ∀ d n1, n ≤ n1 → (states σ n1).thread t = .inCall i j → ((states σ n1).slot (i % RING)).returned → σ (n1 + d) = .thread t →
            ∃ n', n ≤ n' ∧ ((states σ n').thread t = .idle ∨ ((states σ n').thread t = .inCall i j ∧ σ n' = .thread t ∧
              ((states σ n').slot (i % RING)).returned)) := by
          intro d
          induction d with
          | zero => intro n1 hn a b c; exact ⟨n1, hn, Or.inr ⟨a, c, b⟩⟩
          | succ d ihd =>
            intro n1 hn a b c
            by_cases e : σ n1 = .thread t
            · exact ⟨n1, hn, Or.inr ⟨a, e, b⟩⟩
            · -- ask again for the barrier one step later
              rcases thread_other (states σ n1) (σ n1) t e (by rw [a]; simp) with h | h
              · have a' : (states σ (n1 + 1)).thread t = .inCall i j := by rw [← a]; exact h
                by_cases hr' : ((states σ (n1 + 1)).slot (i % RING)).returned
                · exact ihd (n1 + 1) (by omega) a' hr' (by rw [Nat.add_right_comm, Nat.add_assoc]; exact c)
                · exact absurd (returned_keeps (hC n1) (inv_states σ hC n1) a b e) hr'
              · exact ⟨n1 + 1, by omega, Or.inl h⟩
        obtain ⟨n', h3, h4⟩ := this d (n + m) (by omega) h1 h2 he
        refine ⟨n', h3, h4.imp id fun ⟨a, b, c⟩ => ⟨by rw [a, hin], b, fun i' j' e => ?_⟩⟩
        rw [a] at e; cases e; exact c
      · obtain ⟨n', h1, h2⟩ := next_own σ t n hi (hth n)
        refine ⟨n', h1, h2.imp id fun ⟨a, b⟩ => ⟨a, b, fun i j' e => ?_⟩⟩
        rw [a] at e
        have := hj j' (by rw [e]; rfl)
        subst this
        exact absurd ⟨i, e⟩ hin
    obtain ⟨n', hle, h | ⟨h1, h2, h3⟩⟩ := key
    · exact ⟨n', hle, h⟩
    · have hs : states σ (n' + 1) = step (states σ n') (.thread t) := by rw [← h2]; rfl
      have fin : rank ((states σ (n' + 1)).thread t) < r ∧ ∀ j', ((states σ (n' + 1)).thread t).job = some j' → j' = j := by
        rw [hs]
        rw [← h1] at hr hj
        cases hx : (states σ n').thread t with
        | idle => rw [h1] at hx; exact absurd hx hi
        | want j' =>
          rw [hx] at hr hj
          simp only [step, hx]
          split <;> simp only [upd_same] <;> exact ⟨by simp [rank] at hr ⊢; omega, hj⟩
        | inCall i j' =>
          rw [hx] at hr hj
          simp only [step, hx, if_pos (h3 i j' hx), upd_same]
          exact ⟨by simp [rank] at hr ⊢; omega, hj⟩
        | finish i j' =>
          rw [hx] at hr hj
          simp only [step, hx, upd_same]
          exact ⟨by simp [rank] at hr ⊢; omega, fun _ e => by cases e⟩
        | serial j' =>
          rw [hx] at hr hj
          simp only [step, hx, upd_same]
          exact ⟨by simp [rank] at hr ⊢; omega, fun _ e => by cases e⟩
        | _ =>
          rw [hx] at hr hj
          simp only [step, hx, upd_same]
          exact ⟨by simp [rank] at hr ⊢; omega, hj⟩
      obtain ⟨n'', h4, h5⟩ := ih _ fin.1 (n' + 1) (by omega) rfl fin.2
      exact ⟨n'', by omega, h5⟩

theorem ends_of_barrier (σ : Nat → Act) (hC : ∀ n, Calm (states σ n)) (t : Nat) (hth : ∀ n, ∃ n', n ≤ n' ∧ σ n' = .thread t) (j : Job)
    (hb : ∀ i n0, (states σ n0).thread t = .inCall i j →
      ∃ m, (states σ (n0 + m)).thread t = .inCall i j ∧ ((states σ (n0 + m)).slot (i % RING)).returned) :
    ∀ r n, rank ((states σ n).thread t) = r → (∀ j', ((states σ n).thread t).job = some j' → j' = j) →
      ∃ n', n ≤ n' ∧ (states σ n').thread t = .idle :=
  fun r n => ends_of_barrier_from σ hC t hth j 0 (fun i n0 _ h => hb i n0 h) r n (Nat.zero_le n)

/-- An example of a run: thread 1 starts `j`; then it and all workers keep running. -/
def steadyRun (j : Job) (n : Nat) : Act :=
  if n = 0 then .start 1 true j else if n % 2 = 0 then .thread 1 else .worker (n / 2 - Nat.sqrt (n / 2) * Nat.sqrt (n / 2))

theorem steadyRun_workers (j : Job) (w m : Nat) : ∃ m', m ≤ m' ∧ steadyRun j m' = .worker w := by
  refine ⟨2 * ((m + w) * (m + w) + w) + 1, ?_, ?_⟩
  · have : m + w ≤ (m + w) * (m + w) := Nat.le_mul_self _
    omega
  · have e : (2 * ((m + w) * (m + w) + w) + 1) / 2 = (m + w) * (m + w) + w := by omega
    have e2 : Nat.sqrt ((m + w) * (m + w) + w) = m + w := Nat.sqrt_add_eq _ (by omega)
    rw [steadyRun, if_neg (by omega), if_neg (by omega), e, e2, Nat.add_sub_cancel_left]

theorem steadyRun_thread (j : Job) (m : Nat) : ∃ m', m ≤ m' ∧ steadyRun j m' = .thread 1 :=
  ⟨2 * m + 2, by omega, by rw [steadyRun, if_neg (by omega), if_pos (by omega)]⟩

theorem steadyRun_calm (j : Job) (n : Nat) : Calm (states (steadyRun j) n) := by
  have main : (states (steadyRun j) n).main ≤ 1 ∧ (0 < n → (((states (steadyRun j) n).thread 1 = .want j ∨ (states (steadyRun j) n).thread 1 = .take true j) →
      (states (steadyRun j) n).main = 0) ∧ (∀ j', (states (steadyRun j) n).thread 1 = .want j' → j' = j) ∧
      (∀ b j', (states (steadyRun j) n).thread 1 = .take b j' → b = true ∧ j' = j)) := by
    induction n with
    | zero => exact ⟨Nat.zero_le _, fun h => absurd h (by omega)⟩
    | succ n ih =>
      by_cases h0 : n = 0
      · subst h0
        refine ⟨Nat.zero_le _, fun _ => ⟨fun _ => rfl, ?_, ?_⟩⟩
        · intro j' h; change Thread.want j = _ at h; injection h with h; exact h.symm
        · intro b j' h; change Thread.want j = _ at h; cases h
      · obtain ⟨i1, i2⟩ := ih
        obtain ⟨i2, i3, i4⟩ := i2 (by omega)
        simp only [states]
        rw [steadyRun, if_neg h0]
        split
        · simp only [step]
          split <;> rename_i hx
          · exact ⟨i1, fun _ => ⟨i2, i3, i4⟩⟩
          · have := i3 _ hx
            subst this
            split
            · refine ⟨i1, fun _ => ⟨?_, ?_, ?_⟩⟩ <;> simp
            · refine ⟨i1, fun _ => ⟨fun _ => i2 (Or.inl hx), ?_, ?_⟩⟩ <;> simp
          · obtain ⟨rfl, rfl⟩ := i4 _ _ hx
            have := i2 (Or.inr hx)
            refine ⟨by simp [this], fun _ => ⟨?_, ?_, ?_⟩⟩ <;> simp
          · refine ⟨i1, fun _ => ⟨?_, ?_, ?_⟩⟩ <;> simp
          · refine ⟨i1, fun _ => ⟨?_, ?_, ?_⟩⟩ <;> simp
          · refine ⟨i1, fun _ => ⟨?_, ?_, ?_⟩⟩ <;> simp
          · split
            · refine ⟨i1, fun _ => ⟨?_, ?_, ?_⟩⟩ <;> simp
            · exact ⟨i1, fun _ => ⟨i2, i3, i4⟩⟩
          · refine ⟨i1, fun _ => ⟨?_, ?_, ?_⟩⟩ <;> simp
          · refine ⟨i1, fun _ => ⟨?_, ?_, ?_⟩⟩ <;> simp
        · simp only [step]
          split
          · exact ⟨i1, fun _ => ⟨i2, i3, i4⟩⟩
          · split
            · exact ⟨i1, fun _ => ⟨i2, i3, i4⟩⟩
            · exact ⟨i1, fun _ => ⟨i2, i3, i4⟩⟩
            · split <;> exact ⟨i1, fun _ => ⟨i2, i3, i4⟩⟩
            · exact ⟨i1, fun _ => ⟨i2, i3, i4⟩⟩
  intro t i _
  have := main.1
  simp only [RING]; omega

/-- **C94**, element-wise functions: any number of threads call operations (of all kinds, some of which fail for lack of memory), any number of workers, steps in
any order in which every worker and thread `t` keep running and never 1024 operations are started while one is in progress: an element-wise call of thread `t`
comes to an end, however far it has got. -/
theorem C94_elementwise_ends_partial (σ : Nat → Act) (hcalm : ∀ m, Calm (states σ m)) (hworkers : ∀ w m, w ≠ 0 → ∃ m', m ≤ m' ∧ σ m' = .worker w)
    (t : Nat) (hthread : ∀ m, ∃ m', m ≤ m' ∧ σ m' = .thread t) (m n : Nat) (req : Int) (maxWakeup zz : Nat)
    (h : ((states σ m).thread t).job = some (.ufunc (ufuncItem n req maxWakeup zz))) :
    ∃ m', m ≤ m' ∧ (states σ m').thread t = .idle :=
  ends_of_barrier σ hcalm t hthread _ (fun i n0 hi => ufunc_returns σ hcalm hworkers t hthread i n0 n req maxWakeup zz hi) _ m rfl
    fun j' e => by rw [h] at e; exact (Option.some.inj e).symm

example : ∃ m', 1 ≤ m' ∧ (states (steadyRun (.ufunc (ufuncItem 100000 4 15 0))) m').thread 1 = .idle :=
  C94_elementwise_ends_partial _ (steadyRun_calm _) (fun w m _ => steadyRun_workers _ w m) 1 (steadyRun_thread _) 1 100000 4 15 0 rfl

/-- **C94**, indexing, `arange`, `is_sorted` (calls that work chunk by chunk): the same. -/
theorem C94_chunks_end_partial (σ : Nat → Act) (hcalm : ∀ m, Calm (states σ m)) (hworkers : ∀ w m, w ≠ 0 → ∃ m', m ≤ m' ∧ σ m' = .worker w)
    (t : Nat) (hthread : ∀ m, ∃ m', m ≤ m' ∧ σ m' = .thread t) (m n wakeup : Nat)
    (h : ((states σ m).thread t).job = some (.counter (chunkCfg n wakeup))) :
    ∃ m', m ≤ m' ∧ (states σ m').thread t = .idle :=
  ends_of_barrier σ hcalm t hthread _ (fun i n0 hi => chunk_returns σ hcalm hworkers t hthread i n0 n wakeup hi) _ m rfl
    fun j' e => by rw [h] at e; exact (Option.some.inj e).symm

example : ∃ m', 1 ≤ m' ∧ (states (steadyRun (.counter (chunkCfg 100000 3))) m').thread 1 = .idle :=
  C94_chunks_end_partial _ (steadyRun_calm _) (fun w m _ => steadyRun_workers _ w m) 1 (steadyRun_thread _) 1 100000 3 rfl

/-- A sort of thread 1 is published; thread 2's sort takes an item, gets no memory and fails. -/
def failedSort (g : Counter.Cfg) (j : Job) : List Act := overtake g j ++ [.thread 2, .giveUp 2]

/-- **C94 is violated** for sorts: thread 2's failed sort is over and has left everything unlocked, but thread 1's sort never returns, whatever the workers do
(until a thread starts the 1024th operation). -/
theorem C94_failed_sort_violated (g : Counter.Cfg) (hs : g.skip0 = true) (hn : 0 < g.n) (j : Job) :
    (exec (failedSort g j)).thread 2 = .idle ∧ (exec (failedSort g j)).lock = false ∧
    ∀ l, (exec (failedSort g j ++ l)).main ≤ 1024 →
      (exec (failedSort g j ++ l)).thread 1 = .inCall 1 (.counter g) ∧ ¬ ((exec (failedSort g j ++ l)).slot (1 % 1024)).returned := by
  refine ⟨rfl, rfl, fun l hl => ?_⟩
  have e : failedSort g j ++ l = overtake g j ++ ([.thread 2, .giveUp 2] ++ l) := by simp [failedSort]
  rw [e] at hl ⊢
  exact C40_concurrent_sort_hangs_violated g hs hn j _ hl

example := C94_failed_sort_violated { n := 8, skip0 := true, wakeup := 7 } rfl (by decide) (.counter { n := 8, skip0 := true, wakeup := 7 })

end Pnumpy.Props
