import Verif.Proofs.FutexWork
/-
Property C88 for element-wise calls: no lost wake-up, and no thread spinning after the call.
-/
namespace Pnumpy.Props
open Pnumpy.FutexWork
open Pnumpy.Futex (Worker Phase Act Before notified notified_of_le)
open Pnumpy.Work (upd workMainSetup)

/-- **C88, partial** (Linux, element-wise calls): once the caller has issued its wake-ups, and while some block of the arrays has
not been taken by any thread, no worker that may take part (number at most `ThreadWakeup`) sleeps or is about to sleep.  For
every state in which earlier calls left the workers, every choice the futex makes, every schedule.
Missing: fewer than 3 workers to be woken out of more, for which it is false (`C88_elementwise_few_violated`). -/
theorem C88_elementwise_nobody_sleeps_partial (len maxWakeup blockSize zz workers : Nat) (req : Int) (generic : Bool)
    (k : Cfg) (hset : k = { workers, it := workMainSetup len req maxWakeup blockSize generic zz })
    (hk : 3 ≤ k.it.wakeup ∨ workers ≤ k.it.wakeup) (hmax : workers ≤ 15)
    (w : Nat → Worker) (hw : Before w) (l : List Act) (hp : (exec k w l).phase = .work)
    (b : Nat) (hb : b < k.it.blockLast) (hl : b ∉ (exec k w l).item.log) (hr : ∀ c, (exec k w l).item.pc c ≠ .run b)
    (hr' : ∀ c ch pos, (exec k w l).item.pc c = .bump ch pos → k.it.logical ch pos ≠ b)
    (c : Nat) (h1 : 1 ≤ c) (hT : c ≤ k.it.wakeup) (hW : c ≤ workers) :
    (exec k w l).worker c = .top ∨ (exec k w l).worker c = .wait false ∨ (exec k w l).worker c = .work := by
  have wf : Work.WF k.it := by rw [hset]; exact Work.setup_wf _ _ _ _ _ _
  have kw : k.workers = workers := by rw [hset]
  have hi := inv_exec wf hw l
  have hno : ¬ Work.AllClaimed k.it (exec k w l).item := by
    refine not_all wf hi.item hb hl fun d => ?_
    cases hq : (exec k w l).item.pc d with
    | bump ch pos => exact fun e => hr' d ch pos hq e.symm
    | run b' => exact fun e => hr d (by rw [hq, show b' = b from e.symm])
    | _ => simp [Work.Holds]
  cases hx : (exec k w l).worker c with
  | top => simp
  | work => simp
  | asleep => exact absurd (sleeps_exec wf hw (kw ▸ hk) h1 hT (kw ▸ hW) (by omega) l hp hx) hno
  | wait f =>
    cases f with
    | false => simp
    | true => exact absurd (hi.waits c h1 hT hx) hno

/-- **C88, partial** (element-wise calls): such a worker is inside the operation after at most two steps of its own, whatever the
others do. -/
theorem C88_elementwise_joins_partial (len maxWakeup blockSize zz workers : Nat) (req : Int) (generic : Bool)
    (k : Cfg) (hset : k = { workers, it := workMainSetup len req maxWakeup blockSize generic zz })
    (hk : 3 ≤ k.it.wakeup ∨ workers ≤ k.it.wakeup) (hmax : workers ≤ 15)
    (w : Nat → Worker) (hw : Before w) (l : List Act) (hp : (exec k w l).phase = .work)
    (b : Nat) (hb : b < k.it.blockLast) (hl : b ∉ (exec k w l).item.log) (hr : ∀ c, (exec k w l).item.pc c ≠ .run b)
    (hr' : ∀ c ch pos, (exec k w l).item.pc c = .bump ch pos → k.it.logical ch pos ≠ b)
    (c : Nat) (h1 : 1 ≤ c) (hT : c ≤ k.it.wakeup) (hW : c ≤ workers)
    (m₁ m₂ : List Act) (h₁ : Act.worker c ∉ m₁) (h₂ : Act.worker c ∉ m₂) :
    (exec k w l).worker c = .work ∨ (exec k w (l ++ m₁ ++ [.worker c])).worker c = .work ∨
      (exec k w (l ++ m₁ ++ [.worker c] ++ m₂ ++ [.worker c])).worker c = .work := by
  have kw : k.workers = workers := by rw [hset]
  have keep : ∀ (m : List Act) (s : St), Act.worker c ∉ m → s.phase = .work → s.worker c ≠ .asleep →
      (m.foldl (step k) s).phase = .work ∧ (m.foldl (step k) s).worker c = s.worker c := by
    intro m
    induction m with
    | nil => exact fun s _ hp _ => ⟨hp, rfl⟩
    | cons a m ih =>
      intro s hm hp hs
      have ha : a ≠ .worker c := fun e => hm (e ▸ List.mem_cons_self)
      have e := hold (k := k) hs a ha
      have := ih (step k s a) (fun h => hm (List.mem_cons_of_mem _ h)) (phase_work hp a) (by rw [e]; exact hs)
      exact ⟨this.1, this.2.trans e⟩
  have hg : ¬ (c = 0 ∨ k.workers < c) := by omega
  have fr : ∀ s : St, s.phase = .work → fresh k s c = true := fun s h => by
    simp [fresh, h, notified_of_le hT (show c ≤ 15 by omega)]
  have top : ∀ s : St, s.phase = .work → s.worker c = .top → (step k s (.worker c)).worker c = .work := fun s h1 h2 => by
    simp [step, hg, h2, fr s h1, hT, upd]
  have ex : ∀ l m : List Act, exec k w (l ++ m) = m.foldl (step k) (exec k w l) := fun l m => by simp [exec, List.foldl_append]
  rcases C88_elementwise_nobody_sleeps_partial len maxWakeup blockSize zz workers req generic k hset hk hmax w hw l hp b hb hl hr hr'
    c h1 hT hW with h | h | h
  · right; left
    have := keep m₁ (exec k w l) h₁ hp (by rw [h]; simp)
    rw [exec_snoc, ex]
    exact top _ this.1 (this.2.trans h)
  · right; right
    have q := keep m₁ (exec k w l) h₁ hp (by rw [h]; simp)
    have e : (exec k w (l ++ m₁ ++ [.worker c])).worker c = .top := by
      rw [exec_snoc, ex]
      simp [step, hg, q.2, h, fr _ q.1, upd]
    have ep : (exec k w (l ++ m₁ ++ [.worker c])).phase = .work := by
      rw [exec_snoc, ex]; exact phase_work q.1 _
    have r := keep m₂ _ h₂ ep (by rw [e]; simp)
    rw [exec_snoc, ex]
    exact top _ r.1 (r.2.trans e)
  · exact Or.inl h

/-- **C88 is violated** for element-wise calls, too, when one or two workers are to be woken out of more: the futex may wake others
in place of worker 1, which then sleeps through the whole call although it is one of those chosen for it. -/
theorem C88_elementwise_few_violated (len maxWakeup blockSize zz workers : Nat) (req : Int) (generic : Bool)
    (k : Cfg) (hset : k = { workers, it := workMainSetup len req maxWakeup blockSize generic zz })
    (hT : k.it.wakeup = 1 ∨ k.it.wakeup = 2) (hW : k.it.wakeup < workers) :
    Legal k (exec k (fun _ => .asleep) [.caller fun _ => false]) (fun c => c == 2 || (c == 3 && k.it.wakeup == 2)) ∧
    ∀ l : List Act, Act.spurious 1 ∉ l →
      (exec k (fun _ => .asleep)
        ([.caller fun _ => false, .caller fun c => c == 2 || (c == 3 && k.it.wakeup == 2)] ++ l)).worker 1 = .asleep := by
  have kw : k.workers = workers := by rw [hset]
  clear hset
  have hleg : Legal k { phase := .wake, worker := fun _ => .asleep, did := fun _ => false, item := Work.init }
      (fun c => c == 2 || (c == 3 && k.it.wakeup == 2)) := by
    refine ⟨?_, ?_, ?_⟩
    · intro c hc
      have : c = 2 ∨ c = 3 ∧ k.it.wakeup = 2 := by simpa using hc
      rcases this with rfl | ⟨rfl, h2⟩
      · exact ⟨by omega, by omega, rfl, by simp [notified]⟩
      · exact ⟨by omega, by omega, rfl, by simp [notified]⟩
    · by_cases h3 : 3 ≤ workers
      · have : sleepers0 k { phase := .wake, worker := fun _ => .asleep, did := fun _ => false, item := Work.init } = [1, 2, 3] := by
          simp [sleepers0, kw, List.filter, show 1 ≤ workers by omega, show 2 ≤ workers by omega, h3]
        rw [this]
        rcases hT with e | e <;> rw [e] <;> rfl
      · have : sleepers0 k { phase := .wake, worker := fun _ => .asleep, did := fun _ => false, item := Work.init } = [1, 2] := by
          simp [sleepers0, kw, List.filter, show 1 ≤ workers by omega, show 2 ≤ workers by omega, h3]
        rw [this]
        have : k.it.wakeup = 1 := by omega
        rw [this]; rfl
    · intro c h4 _ _ hnot
      have : 1 ≤ c / 4 := by omega
      simp [notified] at hnot; omega
  have e1 : exec k (fun _ => .asleep) [.caller fun _ => false] =
      { phase := .wake, worker := fun _ => .asleep, did := fun _ => false, item := Work.init } := rfl
  have e2 : exec k (fun _ => .asleep) [.caller fun _ => false, .caller fun c => c == 2 || (c == 3 && k.it.wakeup == 2)] =
      { phase := .work, worker := fun c => if c == 2 || (c == 3 && k.it.wakeup == 2) then .top else .asleep,
        did := fun _ => false, item := Work.init } := by
    show step k (exec k (fun _ => .asleep) [.caller fun _ => false]) (.caller fun c => c == 2 || (c == 3 && k.it.wakeup == 2)) = _
    rw [e1]; simp only [step, if_pos hleg]
  rw [e1]
  refine ⟨hleg, fun l hl => ?_⟩
  have key : ∀ (l : List Act) (s : St), Act.spurious 1 ∉ l → s.phase = .work → s.worker 1 = .asleep →
      (l.foldl (step k) s).worker 1 = .asleep := by
    intro l
    induction l with
    | nil => exact fun _ _ _ h => h
    | cons a l ih =>
      intro s hns hp hs
      refine ih _ (fun h => hns (List.mem_cons_of_mem _ h)) (phase_work hp a) ?_
      by_cases ha : a = .worker 1
      · subst ha; simp only [step]
        split
        · exact hs
        · rw [hs]; exact hs
      · rw [(dist_other (k := k) (Nat.le_refl 1) hp a ha (fun e => hns (e ▸ List.mem_cons_self))).1]; exact hs
  have ex : ∀ l m : List Act, exec k (fun _ => .asleep) (l ++ m) = m.foldl (step k) (exec k (fun _ => .asleep) l) :=
    fun l m => by simp [exec, List.foldl_append]
  rw [ex, e2]
  exact key l _ hl rfl rfl

/-- **C88** (Linux): after every element-wise call the library comes to rest.  In every fair run - however many workers are to be
woken and whichever the futex wakes - the call returns with every block of the arrays processed exactly once, and from some
moment on every worker sleeps, if sleepers do not wake by themselves. -/
theorem C88_elementwise_comes_to_rest (len maxWakeup blockSize zz workers : Nat) (req : Int) (generic : Bool)
    (k : Cfg) (hset : k = { workers, it := workMainSetup len req maxWakeup blockSize generic zz })
    (w : Nat → Worker) (hw : Before w)
    (σ : Nat → Act) (hf : Fair k w σ) (hs : ∃ t, ∀ u c, t ≤ u → σ u ≠ .spurious c) :
    ∃ t, (trace k w σ t).item.pc 0 = .returned ∧ (∀ b, (trace k w σ t).item.log.count b = if b < k.it.blockLast then 1 else 0) ∧
      ∀ u, t ≤ u → ∀ c, 1 ≤ c → c ≤ workers → (trace k w σ u).worker c = .asleep := by
  have wf : Work.WF k.it := by rw [hset]; exact Work.setup_wf _ _ _ _ _ _
  have kw : k.workers = workers := by rw [hset]
  obtain ⟨ts, hs⟩ := hs
  obtain ⟨tr, hret⟩ := Work.live wf (work_fair wf hw hf)
  obtain ⟨tp, hp⟩ := reaches_work hf
  have hret : (trace k w σ tr).item.pc 0 = .returned := by rw [trace_item]; exact hret
  have hall := (inv_trace wf hw σ tr).item.retAll 0 (Or.inr (Or.inr hret))
  have hp' : (trace k w σ (max ts (max tr tp))).phase = .work := by
    have := phase_work_from hp (max ts (max tr tp) - tp)
    rwa [show tp + (max ts (max tr tp) - tp) = max ts (max tr tp) by omega] at this
  obtain ⟨t, h⟩ := all_sleep wf hw hf (t0 := max ts (max tr tp)) hp' (claimed_from hall _ (by omega)) (fun u c hu => hs u c (by omega))
  have hfin := returned_stays hret (max t tr) (by omega)
  refine ⟨max t tr, hfin, ?_, fun u hu c a b => h u (by omega) c a (kw ▸ b)⟩
  have hi := (inv_trace wf hw σ (max t tr)).item
  have hdone := hi.retDone 0 hfin
  intro b
  split
  · rename_i hb
    have hd : b ∈ (trace k w σ (max t tr)).item.doneL :=
      Work.nodup_full hi.doneNodup (fun x hx => Work.Inv.claimed_lt wf (hi.logClaimed x (hi.doneLog x hx)))
        (by rw [hi.doneLen]; exact hdone) b hb
    rw [hi.logNodup.count, if_pos (hi.doneLog b hd)]
  · rename_i hb
    exact List.count_eq_zero.mpr fun hm => hb (Work.Inv.claimed_lt wf (hi.logClaimed b hm))

/-- Case of `C88_elementwise_nobody_sleeps_partial`: 100000 elements in blocks of 16384, seven workers, five to be woken; worker 2
is on its way to sleep when the call is published, the others sleep. -/
def sevenWork : Cfg := { workers := 7, it := workMainSetup 100000 5 7 16384 true 0 }

def mixedWork : Nat → Worker := fun c => if c = 2 then .wait false else .asleep

/-- The futex wakes every sleeper of the two pools. -/
def allBut2Work : Nat → Bool := fun c => decide (1 ≤ c ∧ c ≤ 7 ∧ c ≠ 2)

theorem sevenWork_legal : Legal sevenWork { phase := .wake, worker := mixedWork, did := fun _ => false, item := Work.init } allBut2Work := by
  refine ⟨?_, by decide, ?_⟩
  · intro c hc
    have : 1 ≤ c ∧ c ≤ 7 ∧ c ≠ 2 := by simpa [allBut2Work] using hc
    refine ⟨this.1, this.2.1, by simp [mixedWork, this.2.2], ?_⟩
    have h : c / 4 = 0 ∨ c / 4 = 1 := by omega
    rcases h with e | e <;> rw [e] <;> decide
  · intro c h4 h7 _ _
    simp only [sevenWork] at h7
    simp [allBut2Work]; omega

theorem sevenWork_state : exec sevenWork mixedWork [.caller fun _ => false, .caller allBut2Work] =
    { phase := .work, worker := fun c => if allBut2Work c then .top else mixedWork c, did := fun _ => false, item := Work.init } := by
  have e1 : exec sevenWork mixedWork [.caller fun _ => false] =
    { phase := .wake, worker := mixedWork, did := fun _ => false, item := Work.init } := rfl
  show step sevenWork (exec sevenWork mixedWork [.caller fun _ => false]) (.caller allBut2Work) = _
  rw [e1]; simp only [step, if_pos sevenWork_legal]

theorem sevenWork_pc (c : Nat) : (exec sevenWork mixedWork [.caller fun _ => false, .caller allBut2Work]).item.pc c = .own ∨
    (exec sevenWork mixedWork [.caller fun _ => false, .caller allBut2Work]).item.pc c = .idle := by
  rw [sevenWork_state]; simp only [Work.init]; split <;> simp

example := C88_elementwise_nobody_sleeps_partial 100000 7 16384 0 7 5 true sevenWork rfl (Or.inl (by decide)) (by decide) mixedWork
  (fun c => by by_cases h : c = 2 <;> simp [mixedWork, h]) [.caller fun _ => false, .caller allBut2Work]
  (by rw [sevenWork_state]) 6 (by decide) (by rw [sevenWork_state]; simp [Work.init])
  (fun c => by rcases sevenWork_pc c with h | h <;> rw [h] <;> simp)
  (fun c _ _ h => by rcases sevenWork_pc c with h' | h' <;> rw [h'] at h <;> simp at h) 5 (by decide) (by decide) (by decide)

/-- Case of `C88_elementwise_joins_partial`: worker 2, with steps of others in between. -/
example := C88_elementwise_joins_partial 100000 7 16384 0 7 5 true sevenWork rfl (Or.inl (by decide)) (by decide) mixedWork
  (fun c => by by_cases h : c = 2 <;> simp [mixedWork, h]) [.caller fun _ => false, .caller allBut2Work]
  (by rw [sevenWork_state]) 6 (by decide) (by rw [sevenWork_state]; simp [Work.init])
  (fun c => by rcases sevenWork_pc c with h | h <;> rw [h] <;> simp)
  (fun c _ _ h => by rcases sevenWork_pc c with h' | h' <;> rw [h'] at h <;> simp at h) 2 (by decide) (by decide) (by decide)
  [.worker 1, .caller fun _ => false] [.worker 1] (by simp) (by simp)

/-- Case of `C88_elementwise_few_violated`: four workers, two to be woken. -/
example := C88_elementwise_few_violated 100000 4 16384 0 4 2 true _ rfl (Or.inr (by decide)) (by decide)

/-- The futex wakes 2 and 3; then everybody takes turns. -/
def turnsWork (t : Nat) : Act :=
  if t = 0 then .caller fun _ => false
  else if t = 1 then .caller fun c => c == 2 || c == 3
  else if t % 4 = 0 then .caller fun _ => false else .worker (t % 4)

theorem turnsWork_fair : Fair { workers := 3, it := workMainSetup 100000 2 3 16384 true 0 } (fun _ => .asleep) turnsWork := by
  have hleg : Legal { workers := 3, it := workMainSetup 100000 2 3 16384 true 0 }
      (trace { workers := 3, it := workMainSetup 100000 2 3 16384 true 0 } (fun _ => .asleep) turnsWork 1) (fun c => c == 2 || c == 3) := by
    refine ⟨?_, rfl, ?_⟩
    · intro c hc
      have : c = 2 ∨ c = 3 := by simpa using hc
      rcases this with rfl | rfl <;> exact ⟨by decide, by decide, rfl, rfl⟩
    · intro c h4 h3; simp only at h3; omega
  have h2 : (trace { workers := 3, it := workMainSetup 100000 2 3 16384 true 0 } (fun _ => .asleep) turnsWork 2).phase = .work := by
    show (step _ (trace _ _ turnsWork 1) (turnsWork 1)).phase = _
    have : (trace { workers := 3, it := workMainSetup 100000 2 3 16384 true 0 } (fun _ => .asleep) turnsWork 1).phase = .wake := rfl
    simp only [turnsWork, step, this, Nat.one_ne_zero, if_false, if_true, if_pos hleg]
  refine ⟨?_, ?_⟩
  · intro t
    refine ⟨4 * t + 4, by omega, fun _ => false, ?_, ?_⟩
    · simp [turnsWork]
    · intro hp
      have := phase_work_from h2 (4 * t + 2)
      rw [show 2 + (4 * t + 2) = 4 * t + 4 by omega, hp] at this
      simp at this
  · intro c h1 h3 t
    simp only at h3
    refine ⟨4 * t + 4 + c, by omega, ?_⟩
    have : (4 * t + 4 + c) % 4 = c := by omega
    simp only [turnsWork, this]
    rw [if_neg (by omega), if_neg (by omega), if_neg (by omega)]

/-- Case of `C88_elementwise_comes_to_rest`: that schedule. -/
example := C88_elementwise_comes_to_rest 100000 3 16384 0 3 2 true _ rfl (fun _ => .asleep) (fun _ => Or.inr (Or.inr rfl)) turnsWork turnsWork_fair
  ⟨0, fun u c _ => by simp only [turnsWork]; split <;> (try split) <;> (try split) <;> simp⟩

end Pnumpy.Props
