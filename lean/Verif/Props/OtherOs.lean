import Verif.Proofs.OtherOs
import Verif.Props.Work
/-
Property C111: operations return on macOS and on Windows.
-/
namespace Pnumpy.Props
open Pnumpy.OtherOs
open Pnumpy.Futex (Worker Before)
open Pnumpy.Work (upd)

theorem otherOs_sched (k : OtherOs.Cfg) (w : Nat → Worker) (σ : Nat → OtherOs.Act) (t : Nat) :
    ∃ sched, (OtherOs.trace k w σ t).item = Counter.exec k.g sched := by
  induction t with
  | zero => exact ⟨[], rfl⟩
  | succ t ih =>
    obtain ⟨l, e⟩ := ih
    exact ⟨l ++ [_], by simp only [OtherOs.trace, OtherOs.step_item, e, Counter.exec, List.foldl_append, List.foldl_cons, List.foldl_nil]; rfl⟩

theorem otherOs_tasks {k : OtherOs.Cfg} {w : Nat → Worker} {σ : Nat → OtherOs.Act} {t : Nat}
    (ht : (OtherOs.trace k w σ t).item.pc 0 = .returned) : List.Perm (OtherOs.trace k w σ t).item.log (List.range k.g.n) := by
  obtain ⟨sched, e⟩ := otherOs_sched k w σ t
  rw [e] at ht ⊢
  exact (C04_tasks_exactly_once _ sched).2.2 ht

/-- **C111** on Windows, with or without `WaitOnAddress`: with at least one worker thread and at least one to be woken, every operation (parallel sort,
record conversion, chunk-wise operation; `n` tasks) returns and has executed every task exactly once, for every state in which earlier calls left the
workers and every schedule in which the caller and the worker threads keep running (and sleeps end). -/
theorem C111_windows (k : OtherOs.Cfg) (hos : k.os ≠ .mac) (hT : 1 ≤ k.g.wakeup) (hW : 1 ≤ k.workers) (w : Nat → Worker) (hw : Before w)
    (σ : Nat → OtherOs.Act) (hf : OtherOs.Fair k w σ) :
    ∃ t, (OtherOs.trace k w σ t).item.pc 0 = .returned ∧ List.Perm (OtherOs.trace k w σ t).item.log (List.range k.g.n) := by
  obtain ⟨t, ht⟩ := OtherOs.returns hw hf hT hW (fun h => absurd h hos)
  exact ⟨t, ht, otherOs_tasks ht⟩

/-- **C111** on macOS, partial: the same if, at the moment of the wake-up, one of the threads 1 to 3 that may take part is not between its decision to sleep and
the sleep.  Missing: that moment (`C111_mac_violated`). -/
theorem C111_mac_partial (k : OtherOs.Cfg) (hT : 1 ≤ k.g.wakeup) (hW : 1 ≤ k.workers) (w : Nat → Worker) (hw : Before w)
    (σ : Nat → OtherOs.Act) (hf : OtherOs.Fair k w σ) (hn : NotLost k w σ) :
    ∃ t, (OtherOs.trace k w σ t).item.pc 0 = .returned ∧ List.Perm (OtherOs.trace k w σ t).item.log (List.range k.g.n) := by
  obtain ⟨t, ht⟩ := OtherOs.returns hw hf hT hW (fun _ => hn)
  exact ⟨t, ht, otherOs_tasks ht⟩

/-- **C111** on all of them: operations whose tasks the calling thread takes too (element-wise, boolean masks, fills) return whatever the worker threads do, and if there are none. -/
theorem C111_chunks (k : OtherOs.Cfg) (hs : k.g.skip0 = false) (w : Nat → Worker) (hw : Before w) (σ : Nat → OtherOs.Act)
    (hf : OtherOs.Fair k w σ) :
    ∃ t, (OtherOs.trace k w σ t).item.pc 0 = .returned ∧ List.Perm (OtherOs.trace k w σ t).item.log (List.range k.g.n) := by
  obtain ⟨t, h⟩ := Counter.live_of_drained (OtherOs.counter_fair hw hf)
    (Counter.drains (OtherOs.go0_often hf) fun h => by rw [hs] at h; exact absurd h (by decide))
  have ht : (OtherOs.trace k w σ t).item.pc 0 = .returned := by rw [OtherOs.trace_item]; exact h
  exact ⟨t, ht, otherOs_tasks ht⟩

/-- Every worker goes from the top of its loop to the wait; then the caller publishes the call and wakes. -/
def lateSleepers (k : OtherOs.Cfg) : List OtherOs.Act :=
  (List.range k.workers).map (fun i => .worker (i + 1)) ++ List.replicate (2 * pools k.g.wakeup) .caller

/-- Worker threads on their way to sleep, before anything is published. -/
theorem late_workers (k : OtherOs.Cfg) (m : Nat) (hm : m ≤ k.workers) :
    ((List.range m).map (fun i => OtherOs.Act.worker (i + 1))).foldl (OtherOs.step k) (OtherOs.start fun _ => .top) =
      { phase := 0, worker := fun c => if 1 ≤ c ∧ c ≤ m then .wait false else .top, item := Counter.init } := by
  induction m with
  | zero =>
    simp only [List.range_zero, List.map_nil, List.foldl_nil, OtherOs.start]
    congr 1; funext c; rw [if_neg (by omega)]
  | succ m ih =>
    rw [List.range_succ, List.map_append, List.foldl_append, ih (by omega)]
    simp only [List.map_cons, List.map_nil, List.foldl_cons, List.foldl_nil, OtherOs.step]
    rw [if_neg (by omega), if_neg (show ¬ (1 ≤ m + 1 ∧ m + 1 ≤ m) by omega)]
    simp only [OtherOs.fresh, Nat.zero_add, Nat.reduceDiv, Nat.not_lt_zero, decide_false, Bool.false_eq_true, if_false]
    congr 1; funext c
    simp only [upd]
    by_cases hc : c = m + 1
    · rw [if_pos hc, if_pos (by omega)]
    · rw [if_neg hc]
      by_cases h : 1 ≤ c ∧ c ≤ m
      · rw [if_pos h, if_pos (by omega)]
      · rw [if_neg h, if_neg (by omega)]

/-- **C111 is violated** on macOS, whatever the number of tasks, of worker threads and of threads to be woken: if every worker thread decides to sleep just before the call is published, the wake-up
is lost and a parallel sort (or record conversion) never returns, whatever happens afterwards, until a thread wakes up without reason.  The start is the state right after the import. -/
theorem C111_mac_violated (n workers wakeup : Nat) (hn : 0 < n) (l : List OtherOs.Act) (hl : ∀ c, OtherOs.Act.spurious c ∉ l) :
    (OtherOs.exec ⟨.mac, workers, { n, skip0 := true, wakeup }⟩ (fun _ => .top)
      (lateSleepers ⟨.mac, workers, { n, skip0 := true, wakeup }⟩ ++ l)).item.pc 0 ≠ .returned := by
  generalize hk : (⟨.mac, workers, { n, skip0 := true, wakeup }⟩ : OtherOs.Cfg) = k
  have ko : k.os = .mac := by rw [← hk]
  have ks : k.g.skip0 = true := by rw [← hk]
  have kn : k.g.n = n := by rw [← hk]
  -- the calls of the caller in SetWorkItem change only the phase
  have pub : ∀ j p (v : Nat → Worker), (∀ c, v c ≠ .asleep) → p + j ≤ 2 * pools k.g.wakeup →
      (List.replicate j OtherOs.Act.caller).foldl (OtherOs.step k) { phase := p, worker := v, item := Counter.init } =
        { phase := p + j, worker := v, item := Counter.init } := by
    intro j
    induction j with
    | zero => intro p v _ _; rfl
    | succ j ih =>
      intro p v hv hj
      rw [List.replicate_succ, List.foldl_cons]
      have e : OtherOs.step k { phase := p, worker := v, item := Counter.init } .caller =
          { phase := p + 1, worker := v, item := Counter.init } := by
        simp only [OtherOs.step]
        rw [if_pos (by omega)]
        split
        · rfl
        · congr 1; funext c
          have : OtherOs.woken k { phase := p, worker := v, item := Counter.init } c = false := by
            simp [OtherOs.woken, hv c]
          rw [this]; rfl
      rw [e, ih (p + 1) v hv (by omega)]
      congr 1; omega
  have hstart : OtherOs.exec k (fun _ => .top) (lateSleepers k) =
      { phase := 2 * pools k.g.wakeup, worker := fun c => if 1 ≤ c ∧ c ≤ k.workers then .wait false else .top, item := Counter.init } := by
    unfold OtherOs.exec lateSleepers
    rw [List.foldl_append, late_workers k k.workers (Nat.le_refl _), pub _ 0 _ (by intro c; split <;> simp) (by omega), Nat.zero_add]
  have key : ∀ (l : List OtherOs.Act) (s : OtherOs.St), (∀ c, OtherOs.Act.spurious c ∉ l) → s.phase = 2 * pools k.g.wakeup →
      (∀ c, 1 ≤ c → c ≤ k.workers → s.worker c = .wait false ∨ s.worker c = .asleep) → s.item.completed = 0 →
      ((s.item.next = 0 ∧ s.item.pc 0 = .fetch false) ∨ (∃ d, s.item.pc 0 = .ret d) ∨ s.item.pc 0 = .wait) →
      (l.foldl (OtherOs.step k) s).item.pc 0 ≠ .returned := by
    intro l
    induction l with
    | nil =>
      intro s _ _ _ _ h5
      simp only [List.foldl_nil]
      rcases h5 with ⟨_, h⟩ | ⟨_, h⟩ | h <;> rw [h] <;> simp
    | cons a l ih =>
      intro s hns h1 h3 h4 h5
      have hns' : ∀ c, OtherOs.Act.spurious c ∉ l := fun c h => hns c (List.mem_cons_of_mem _ h)
      rw [List.foldl_cons]
      cases a with
      | caller =>
        have hs : OtherOs.step k s .caller = { s with item := Counter.step k.g s.item (.go 0) } := by
          simp only [OtherOs.step]; rw [if_neg (by omega)]
        rw [hs]
        refine ih _ hns' h1 h3 ?_ ?_
        all_goals rcases h5 with ⟨hx, h⟩ | ⟨d, h⟩ | h
        all_goals simp only [Counter.step, Nat.not_lt_zero, if_false, h]
        · exact h4
        · exact h4
        · simp [h4, kn, hn]
        · right; left; exact ⟨false, by simp [hx, Counter.Cfg.task, ks, upd]⟩
        · right; right; simp [upd]
        · right; right; simp [h4, kn, hn, h]
      | spurious c => exact absurd List.mem_cons_self (hns c)
      | worker c =>
        by_cases hc : c = 0 ∨ k.workers < c
        · have hs : OtherOs.step k s (.worker c) = s := by simp only [OtherOs.step, if_pos hc]
          rw [hs]; exact ih s hns' h1 h3 h4 h5
        rcases h3 c (by omega) (by omega) with hw | hw
        · have hs : OtherOs.step k s (.worker c) = { s with worker := upd s.worker c .asleep } := by
            simp only [OtherOs.step, if_neg hc, hw, OtherOs.goSleep, ko]
          rw [hs]
          refine ih _ hns' h1 ?_ h4 h5
          intro d hd hd'; by_cases e : d = c
          · right; simp [upd, e]
          · simpa only [upd, if_neg e] using h3 d hd hd'
        · have hs : OtherOs.step k s (.worker c) = s := by simp only [OtherOs.step, if_neg hc, hw]
          rw [hs]; exact ih s hns' h1 h3 h4 h5
  have := key l { phase := 2 * pools k.g.wakeup, worker := fun c => if 1 ≤ c ∧ c ≤ k.workers then .wait false else .top, item := Counter.init }
    hl rfl (fun c h1 h2 => by left; simp only; rw [if_pos ⟨h1, h2⟩]) rfl (Or.inl ⟨rfl, rfl⟩)
  rw [← hstart] at this
  simpa only [OtherOs.exec, List.foldl_append] using this

/-- A schedule for the examples: the caller publishes and wakes, then everybody runs in turn, sleepers waking up by themselves from time to time. -/
def takeTurns (t : Nat) : OtherOs.Act :=
  if t < 2 then .caller else
  match t % 5 with
  | 0 => .caller
  | 1 => .worker 1
  | 2 => .worker 2
  | 3 => .spurious 1
  | _ => .spurious 2

theorem takeTurns_fair (os : Os) (g : Counter.Cfg) (w : Nat → Worker) : OtherOs.Fair ⟨os, 2, g⟩ w takeTurns := by
  have at_ : ∀ t r, r < 5 → ∃ t', t ≤ t' ∧ 2 ≤ t' ∧ t' % 5 = r := fun t r hr => ⟨5 * t + 5 + r, by omega, by omega, by omega⟩
  refine ⟨fun t => ?_, fun c h1 h2 t => ?_, fun _ c h1 h2 t => ?_⟩
  · obtain ⟨t', a, b, d⟩ := at_ t 0 (by omega)
    exact ⟨t', a, by unfold takeTurns; rw [if_neg (by omega), d]; rfl⟩
  · simp only at h2
    obtain ⟨t', a, b, d⟩ := at_ t c (by omega)
    refine ⟨t', a, ?_⟩
    unfold takeTurns; rw [if_neg (by omega), d]
    rcases (show c = 1 ∨ c = 2 by omega) with rfl | rfl <;> rfl
  · simp only at h2
    obtain ⟨t', a, b, d⟩ := at_ t (c + 2) (by omega)
    refine ⟨t', a, ?_⟩
    unfold takeTurns; rw [if_neg (by omega), d]
    rcases (show c = 1 ∨ c = 2 by omega) with rfl | rfl <;> rfl

/-- Cases: eight tasks, two sleeping workers, one to be woken, on Windows with and without `WaitOnAddress`. -/
example := C111_windows ⟨.windows, 2, { n := 8, skip0 := true, wakeup := 1 }⟩ (by decide) (by decide) (by decide) (fun _ => .asleep)
  (fun _ => Or.inr (Or.inr rfl)) takeTurns (takeTurns_fair _ _ _)
example := C111_windows ⟨.windows7, 2, { n := 8, skip0 := true, wakeup := 1 }⟩ (by decide) (by decide) (by decide) (fun _ => .asleep)
  (fun _ => Or.inr (Or.inr rfl)) takeTurns (takeTurns_fair _ _ _)
/-- Case: a chunk-wise operation on macOS that wakes nobody. -/
example := C111_chunks ⟨.mac, 2, { n := 8, skip0 := false, wakeup := 0 }⟩ rfl (fun _ => .asleep) (fun _ => Or.inr (Or.inr rfl)) takeTurns (takeTurns_fair _ _ _)
/-- Case: on macOS, the wake-up finds both workers asleep. -/
example := C111_mac_partial ⟨.mac, 2, { n := 8, skip0 := true, wakeup := 1 }⟩ (by decide) (by decide) (fun _ => .asleep)
  (fun _ => Or.inr (Or.inr rfl)) takeTurns (takeTurns_fair _ _ _) (by
    intro t _ hp
    have h2 : 2 ≤ (OtherOs.trace ⟨.mac, 2, { n := 8, skip0 := true, wakeup := 1 }⟩ (fun _ => .asleep) takeTurns 2).phase := by decide
    have ht : t < 2 := by
      refine Classical.byContradiction fun hc => ?_
      have := OtherOs.phase_from h2 (show 2 ≤ t by omega)
      omega
    refine ⟨1, by decide, by decide, by decide, by decide, ?_⟩
    rcases (show t = 0 ∨ t = 1 by omega) with rfl | rfl <;> decide)
/-- Case: two workers too late; the caller and the workers then run in turn for ever. -/
example (m : Nat) := C111_mac_violated 8 2 2 (by decide) (List.flatten (List.replicate m [.caller, .worker 1, .worker 2])) (by
  intro c h; simp only [List.mem_flatten] at h
  obtain ⟨x, hx, h⟩ := h
  rw [(List.mem_replicate.1 hx).2] at h
  simp at h)

end Pnumpy.Props
