import Verif.Proofs.FutexWake
import Verif.Props.Futex
/-
Property C88: no lost wake-up, and no thread spinning after the call.
-/
namespace Pnumpy.Props
open Pnumpy.Futex
open Pnumpy.Work (upd)

/-- **C88, partial** (Linux): once the caller has issued its wake-ups, and while some task of the call has not been started,
no worker that may take part (number at most `ThreadWakeup`) sleeps or is about to sleep - in index mode except one that drew
the empty ticket 0.  For every state in which earlier calls left the workers, every choice the futex makes, every schedule.
Missing: fewer than 3 workers to be woken out of more, for which it is false (`C88_few_violated`). -/
theorem C88_nobody_sleeps_partial (k : Cfg) (hk : 3 ≤ k.g.wakeup ∨ k.workers ≤ k.g.wakeup) (hmax : k.workers ≤ 15)
    (w : Nat → Worker) (hw : Before w) (l : List Act) (hp : (exec k w l).phase = .work)
    (b : Nat) (hb : b < k.g.n) (hl : b ∉ (exec k w l).item.log) (hr : ∀ c, (exec k w l).item.pc c ≠ .run b)
    (c : Nat) (h1 : 1 ≤ c) (hT : c ≤ k.g.wakeup) (hW : c ≤ k.workers) :
    (k.g.skip0 = true ∧ (exec k w l).item.zeroBy = some c) ∨
      (exec k w l).worker c = .top ∨ (exec k w l).worker c = .wait false ∨ (exec k w l).worker c = .work := by
  have ha := awake_exec hw hk h1 hT hW (by omega) l
  have hlt := left_lt (inv_exec hw l).item hb hl hr
  have hn : ¬ k.g.N ≤ (exec k w l).item.next := by omega
  cases hx : (exec k w l).worker c with
  | top => simp
  | work => simp
  | asleep =>
    rcases ha.sleeps hp hx with h | h
    · exact Or.inl h
    · exact absurd h hn
  | wait f =>
    cases f with
    | false => simp
    | true =>
      rcases ha.waits hx with h | h
      · exact Or.inl h
      · exact absurd h hn

/-- **C88, partial**: such a worker is inside the operation after at most two steps of its own, whatever the others do. -/
theorem C88_joins_partial (k : Cfg) (hk : 3 ≤ k.g.wakeup ∨ k.workers ≤ k.g.wakeup) (hmax : k.workers ≤ 15)
    (w : Nat → Worker) (hw : Before w) (l : List Act) (hp : (exec k w l).phase = .work)
    (b : Nat) (hb : b < k.g.n) (hl : b ∉ (exec k w l).item.log) (hr : ∀ c, (exec k w l).item.pc c ≠ .run b)
    (c : Nat) (h1 : 1 ≤ c) (hT : c ≤ k.g.wakeup) (hW : c ≤ k.workers)
    (hz : ¬ (k.g.skip0 = true ∧ (exec k w l).item.zeroBy = some c))
    (m₁ m₂ : List Act) (h₁ : Act.worker c ∉ m₁) (h₂ : Act.worker c ∉ m₂) :
    (exec k w l).worker c = .work ∨ (exec k w (l ++ m₁ ++ [.worker c])).worker c = .work ∨
      (exec k w (l ++ m₁ ++ [.worker c] ++ m₂ ++ [.worker c])).worker c = .work := by
  have keep : ∀ (m : List Act) (s : St), Act.worker c ∉ m → s.phase = .work → s.worker c ≠ .asleep →
      (m.foldl (step k) s).phase = .work ∧ (m.foldl (step k) s).worker c = s.worker c := by
    intro m
    induction m with
    | nil => exact fun s _ hp _ => ⟨hp, rfl⟩
    | cons a m ih =>
      intro s hm hp hs
      have ha : a ≠ .worker c := fun e => hm (e ▸ List.mem_cons_self)
      have e := hold (k := k) hs a ha
      have := ih (step k s a) (fun h => hm (List.mem_cons_of_mem _ h)) (phase_work hp a) (by rw [e]; exact hs)
      exact ⟨this.1, this.2.trans e⟩
  have hg : ¬ (c = 0 ∨ k.workers < c) := by omega
  have fr : ∀ s : St, s.phase = .work → fresh k s c = true := fun s h => by
    simp [fresh, h, notified_of_le hT (show c ≤ 15 by omega)]
  have top : ∀ s : St, s.phase = .work → s.worker c = .top → (step k s (.worker c)).worker c = .work := fun s h1 h2 => by
    simp [step, hg, h2, fr s h1, hT, upd]
  have ex : ∀ l m : List Act, exec k w (l ++ m) = m.foldl (step k) (exec k w l) := fun l m => by simp [exec, List.foldl_append]
  rcases C88_nobody_sleeps_partial k hk hmax w hw l hp b hb hl hr c h1 hT hW with h | h | h | h
  · exact absurd h hz
  · right; left
    have := keep m₁ (exec k w l) h₁ hp (by rw [h]; simp)
    rw [exec_snoc, ex]
    exact top _ this.1 (this.2.trans h)
  · right; right
    have q := keep m₁ (exec k w l) h₁ hp (by rw [h]; simp)
    have e : (exec k w (l ++ m₁ ++ [.worker c])).worker c = .top := by
      rw [exec_snoc, ex]
      simp [step, hg, q.2, h, fr _ q.1, upd]
    have ep : (exec k w (l ++ m₁ ++ [.worker c])).phase = .work := by
      rw [exec_snoc, ex]; exact phase_work q.1 _
    have r := keep m₂ _ h₂ ep (by rw [e]; simp)
    rw [exec_snoc, ex]
    exact top _ r.1 (r.2.trans e)
  · exact Or.inl h

/-- **C88 is violated** when one or two workers are to be woken out of more: the futex may wake others in place of worker 1,
which then sleeps through the whole call (until it wakes up spuriously) although it is one of those chosen for it; with two
to be woken only one of them comes. -/
theorem C88_few_violated (n T workers : Nat) (skip0 : Bool) (hT : T = 1 ∨ T = 2) (hW : T < workers) :
    Legal { workers, g := { n, skip0, wakeup := T } }
      (exec { workers, g := { n, skip0, wakeup := T } } (fun _ => .asleep) [.caller fun _ => false])
      (fun c => c == 2 || (c == 3 && T == 2)) ∧
    ∀ l : List Act, Act.spurious 1 ∉ l →
      (exec { workers, g := { n, skip0, wakeup := T } } (fun _ => .asleep)
        ([.caller fun _ => false, .caller fun c => c == 2 || (c == 3 && T == 2)] ++ l)).worker 1 = .asleep := by
  generalize hk : ({ workers, g := { n, skip0, wakeup := T } } : Cfg) = k
  have kw : k.workers = workers := by rw [← hk]
  have kT : k.g.wakeup = T := by rw [← hk]
  have hleg : Legal k { phase := .wake, worker := fun _ => .asleep, item := Counter.init } (fun c => c == 2 || (c == 3 && T == 2)) := by
    refine ⟨?_, ?_, ?_⟩
    · intro c hc
      have : c = 2 ∨ c = 3 ∧ T = 2 := by simpa using hc
      rcases this with rfl | ⟨rfl, h2⟩
      · exact ⟨by omega, by omega, rfl, by simp [notified]⟩
      · exact ⟨by omega, by omega, rfl, by simp [notified]⟩
    · by_cases h3 : 3 ≤ workers
      · have : sleepers0 k { phase := .wake, worker := fun _ => .asleep, item := Counter.init } = [1, 2, 3] := by
          simp [sleepers0, kw, List.filter, show 1 ≤ workers by omega, show 2 ≤ workers by omega, h3]
        rw [this, kT]
        rcases hT with rfl | rfl <;> rfl
      · have : sleepers0 k { phase := .wake, worker := fun _ => .asleep, item := Counter.init } = [1, 2] := by
          simp [sleepers0, kw, List.filter, show 1 ≤ workers by omega, show 2 ≤ workers by omega, h3]
        rw [this, kT]
        have : T = 1 := by omega
        subst this; rfl
    · intro c h4 _ _ hnot
      have : 1 ≤ c / 4 := by omega
      simp [notified, kT] at hnot; omega
  have e1 : exec k (fun _ => .asleep) [.caller fun _ => false] =
      { phase := .wake, worker := fun _ => .asleep, item := Counter.init } := rfl
  have e2 : exec k (fun _ => .asleep) [.caller fun _ => false, .caller fun c => c == 2 || (c == 3 && T == 2)] =
      { phase := .work, worker := fun c => if c == 2 || (c == 3 && T == 2) then .top else .asleep, item := Counter.init } := by
    show step k (exec k (fun _ => .asleep) [.caller fun _ => false]) (.caller fun c => c == 2 || (c == 3 && T == 2)) = _
    rw [e1]; simp only [step, if_pos hleg]
  rw [e1]
  refine ⟨hleg, fun l hl => ?_⟩
  have key : ∀ (l : List Act) (s : St), Act.spurious 1 ∉ l → s.phase = .work → s.worker 1 = .asleep →
      (l.foldl (step k) s).worker 1 = .asleep := by
    intro l
    induction l with
    | nil => exact fun _ _ _ h => h
    | cons a l ih =>
      intro s hns hp hs
      refine ih _ (fun h => hns (List.mem_cons_of_mem _ h)) (phase_work hp a) ?_
      by_cases ha : a = .worker 1
      · subst ha; simp only [step]
        split
        · exact hs
        · rw [hs]; exact hs
      · rw [(dist_other (k := k) (Nat.le_refl 1) hp a ha (fun e => hns (e ▸ List.mem_cons_self))).1]; exact hs
  have ex : ∀ l m : List Act, exec k (fun _ => .asleep) (l ++ m) = m.foldl (step k) (exec k (fun _ => .asleep) l) :=
    fun l m => by simp [exec, List.foldl_append]
  rw [ex, e2]
  exact key l _ hl rfl rfl

/-- **C88** (Linux): the library comes to rest.  In every fair run of a chunk-mode call, and of an index-mode call with a
worker that is sure to take part (two to be woken, or only one worker), from some moment on every worker sleeps, if sleepers do not wake by
themselves: nobody spins between calls. -/
theorem C88_comes_to_rest (k : Cfg) (hk : k.g.skip0 = false ∨ 1 ≤ k.g.wakeup ∧ 1 ≤ k.workers ∧ (2 ≤ k.g.wakeup ∨ k.workers = 1)) (w : Nat → Worker) (hw : Before w)
    (σ : Nat → Act) (hf : Fair k w σ) (hs : ∃ t, ∀ u c, t ≤ u → σ u ≠ .spurious c) :
    ∃ t, (trace k w σ t).item.pc 0 = .returned ∧
      ∀ u, t ≤ u → ∀ c, 1 ≤ c → c ≤ k.workers → (trace k w σ u).worker c = .asleep := by
  obtain ⟨ts, hs⟩ := hs
  have hd : ∃ t, k.g.N ≤ (Counter.trace k.g (proj_run k w σ) t).next := by
    rcases hk with hk | hk
    · obtain ⟨t, h⟩ := drained_chunk hf hk
      exact ⟨t, by rw [trace_item] at h; exact h⟩
    · exact drained hw hf hk
  obtain ⟨tr, hret⟩ := Counter.live_of_drained (counter_fair hw hf) hd
  obtain ⟨td, hd⟩ := hd
  obtain ⟨tp, hp⟩ := reaches_work hf
  have hp' : ∀ t, tp ≤ t → (trace k w σ t).phase = .work := by
    intro t ht
    have := phase_work_from hp (t - tp)
    rwa [show tp + (t - tp) = t by omega] at this
  obtain ⟨t, h⟩ := all_sleep hw hf (t0 := max ts (max td tp)) (hp' _ (by omega)) (by
      have := Counter.trace_next_mono k.g (proj_run k w σ) td (max ts (max td tp) - td)
      rw [show td + (max ts (max td tp) - td) = max ts (max td tp) by omega] at this
      rw [trace_item]; exact Nat.le_trans hd this) (fun u c hu => hs u c (by omega))
  have stays : ∀ j, (Counter.trace k.g (proj_run k w σ) (tr + j)).pc 0 = .returned := by
    intro j
    induction j with
    | zero => exact hret
    | succ j ih =>
      show (Counter.step k.g _ (proj_run k w σ (tr + j))).pc 0 = _
      cases ha : proj_run k w σ (tr + j) with
      | go c =>
        by_cases e : 0 = c
        · subst e; simp [Counter.step, ih]
        · rw [Counter.step_other _ _ e _ (Or.inl rfl)]; exact ih
      | wake c =>
        by_cases e : 0 = c
        · subst e; rw [wake0]; exact ih
        · rw [Counter.step_other _ _ e _ (Or.inr rfl)]; exact ih
  refine ⟨max t tr, ?_, fun u hu c a b => h u (by omega) c a b⟩
  have := stays (max t tr - tr)
  rw [show tr + (max t tr - tr) = max t tr by omega] at this
  rw [trace_item]; exact this

/-- Case of `C88_nobody_sleeps_partial`: seven workers, five to be woken; worker 2 is on its way to sleep when the call is
published, the others sleep. -/
def mixed : Nat → Worker := fun c => if c = 2 then .wait false else .asleep

def seven : Cfg := { workers := 7, g := { n := 9, skip0 := false, wakeup := 5 } }

/-- The futex wakes every sleeper of the two pools. -/
def allBut2 : Nat → Bool := fun c => decide (1 ≤ c ∧ c ≤ 7 ∧ c ≠ 2)

theorem seven_legal : Legal seven { phase := .wake, worker := mixed, item := Counter.init } allBut2 := by
  refine ⟨?_, rfl, ?_⟩
  · intro c hc
    have : 1 ≤ c ∧ c ≤ 7 ∧ c ≠ 2 := by simpa [allBut2] using hc
    refine ⟨this.1, this.2.1, by simp [mixed, this.2.2], ?_⟩
    have h : c / 4 = 0 ∨ c / 4 = 1 := by omega
    rcases h with e | e <;> simp [notified, seven, e]
  · intro c h4 h7 _ _
    simp only [seven] at h7
    simp [allBut2]; omega

theorem seven_state : exec seven mixed [.caller fun _ => false, .caller allBut2] =
    { phase := .work, worker := fun c => if allBut2 c then .top else mixed c, item := Counter.init } := by
  have e1 : exec seven mixed [.caller fun _ => false] = { phase := .wake, worker := mixed, item := Counter.init } := rfl
  show step seven (exec seven mixed [.caller fun _ => false]) (.caller allBut2) = _
  rw [e1]; simp only [step, if_pos seven_legal]

example := C88_nobody_sleeps_partial seven (Or.inl (by decide)) (by decide) mixed
  (fun c => by by_cases h : c = 2 <;> simp [mixed, h]) [.caller fun _ => false, .caller allBut2]
  (by rw [seven_state]) 8 (by decide) (by rw [seven_state]; simp [Counter.init])
  (fun c => by rw [seven_state]; simp only [Counter.init]; split <;> simp) 5 (by decide) (by decide) (by decide)

/-- Case of `C88_joins_partial`: worker 2, with steps of others in between. -/
example := C88_joins_partial seven (Or.inl (by decide)) (by decide) mixed
  (fun c => by by_cases h : c = 2 <;> simp [mixed, h]) [.caller fun _ => false, .caller allBut2]
  (by rw [seven_state]) 8 (by decide) (by rw [seven_state]; simp [Counter.init])
  (fun c => by rw [seven_state]; simp only [Counter.init]; split <;> simp) 2 (by decide) (by decide) (by decide)
  (by simp [seven]) [.worker 1, .caller fun _ => false] [.worker 1] (by simp) (by simp)

/-- Case of `C88_few_violated`: four workers, two to be woken. -/
example := C88_few_violated 9 2 4 false (Or.inr rfl) (by decide)

/-- Case of `C88_comes_to_rest`: the schedule of the C42 example. -/
example := C88_comes_to_rest { workers := 3, g := { n := 8, skip0 := true, wakeup := 2 } } (Or.inr ⟨by decide, by decide⟩)
  (fun _ => .asleep) (fun _ => Or.inr (Or.inr rfl)) turns turns_fair
  ⟨0, fun u c _ => by simp only [turns]; split <;> (try split) <;> (try split) <;> simp⟩

end Pnumpy.Props
