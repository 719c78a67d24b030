import Verif.Proofs.LiveSettings
import Verif.Props.Callers
import Verif.Props.CallersLive
import Mathlib.Data.List.Induction
import Mathlib.Data.Nat.Pairing
import Mathlib.Tactic.ByContra
/-
C110: settings changed by one thread while other threads are inside threaded operations.
-/
namespace Pnumpy.Props
open Pnumpy.Work (upd)
open Pnumpy.LiveSettings (Call Act)
open Spec

/-- A run that continues the history `l` by nothing. -/
def ofList (l : List Act) (m : Nat) : Act := l.getD m (.worker 0)

theorem ofList_states (W : Nat) (l : List Act) (m : Nat) (h : m ≤ l.length) :
    LiveSettings.states W (ofList l) m = LiveSettings.exec W (l.take m) := by
  induction m with
  | zero => rfl
  | succ m ih =>
    have hl : m < l.length := h
    rw [LiveSettings.states, ih (by omega), LiveSettings.exec, LiveSettings.exec, List.take_succ_eq_append_getElem hl, List.foldl_append]
    simp [ofList, hl]

theorem calmHistory_states (σ : Nat → Callers.Act) (m : Nat) (h : ∀ k, k ≤ m → Callers.Calm (Callers.states σ k)) :
    ∃ l, Callers.exec l = Callers.states σ m ∧ Callers.CalmHistory l := by
  induction m with
  | zero =>
    refine ⟨[], rfl, ?_⟩
    intro p hp
    rw [List.prefix_nil.1 hp]; exact h 0 (Nat.le_refl _)
  | succ m ih =>
    obtain ⟨l, e, hc⟩ := ih fun k hk => h k (by omega)
    have e2 : Callers.exec (l ++ [σ m]) = Callers.states σ (m + 1) := by
      rw [Callers.exec, List.foldl_append]
      change Callers.step (Callers.exec l) (σ m) = _
      rw [e]; rfl
    refine ⟨l ++ [σ m], e2, ?_⟩
    intro p hp
    rcases List.prefix_concat_iff.1 hp with rfl | hp
    · have := h (m + 1) (Nat.le_refl _)
      rwa [← e2] at this
    · exact hc p hp

/-- A history with changing settings ends like a history of `Verif.Model.Callers`. -/
theorem live_callers (W : Nat) (l : List Act) (hl : LiveSettings.CalmHistory W l) :
    ∃ l', Callers.CalmHistory l' ∧ (Callers.exec l').slot = (LiveSettings.exec W l).slot ∧
      ∀ t i c w z, (LiveSettings.exec W l).thread t = .finish i c w z → (Callers.exec l').thread t = .finish i (c.job w z) := by
  obtain ⟨l', e, hc⟩ := calmHistory_states (LiveSettings.act W (ofList l)) l.length (fun k hk => by
    rw [LiveSettings.abs_states]
    refine LiveSettings.abs_calm _ _ _ ?_
    rw [ofList_states W l k hk]
    exact hl _ (List.take_prefix _ _))
  have hs : LiveSettings.states W (ofList l) l.length = LiveSettings.exec W l := by
    rw [ofList_states W l _ (Nat.le_refl _), List.take_length]
  rw [LiveSettings.abs_states] at e
  refine ⟨l', hc, ?_, ?_⟩
  · rw [e]; simp only [LiveSettings.abs, hs]
  · intro t i c w z ht
    rw [e]; simp only [LiveSettings.abs, hs, ht, LiveSettings.absT]

/-- The settings an operation has read. -/
theorem settings_range (W : Nat) (l : List Act) :
    ((LiveSettings.exec W l).wake ≤ 15 ∧ (LiveSettings.exec W l).wake ≤ W - 1) ∧
    ∀ t, match (LiveSettings.exec W l).thread t with
      | .fill _ _ w _ | .ztest _ _ w _ | .zload _ _ w _ | .zstore _ _ w _ _ | .publish _ _ w _ | .inCall _ _ w _ | .finish _ _ w _ => w ≤ 15 ∧ w ≤ W - 1
      | _ => True := by
  induction l using List.reverseRecOn with
  | nil => exact ⟨⟨by simp only [LiveSettings.exec, List.foldl, LiveSettings.init]; omega, by simp only [LiveSettings.exec, List.foldl, LiveSettings.init]; omega⟩, fun t => trivial⟩
  | append_singleton l a ih =>
    have e : LiveSettings.exec W (l ++ [a]) = LiveSettings.step W (LiveSettings.exec W l) a := by
      rw [LiveSettings.exec, List.foldl_append]; rfl
    rw [e]
    generalize LiveSettings.exec W l = s at ih
    obtain ⟨hw, ht⟩ := ih
    cases a with
    | enable => exact ⟨hw, ht⟩
    | disable => exact ⟨hw, ht⟩
    | setWorkers k => exact ⟨by simp only [LiveSettings.step, LiveSettings.clamp]; omega, ht⟩
    | zigRead => simp only [LiveSettings.step]; split <;> exact ⟨hw, ht⟩
    | zigWrite => simp only [LiveSettings.step]; split <;> exact ⟨hw, ht⟩
    | start t lk c =>
      simp only [LiveSettings.step]; split
      · refine ⟨hw, fun t' => ?_⟩
        by_cases h : t' = t
        · subst h; simp [upd]
        · simpa [upd, h] using ht t'
      · exact ⟨hw, ht⟩
    | giveUp t =>
      simp only [LiveSettings.step]; split
      · refine ⟨hw, fun t' => ?_⟩
        by_cases h : t' = t
        · subst h; simp [upd]
        · simpa [upd, h] using ht t'
      · exact ⟨hw, ht⟩
    | worker w =>
      simp only [LiveSettings.step, LiveSettings.stepWorker]
      repeat' split
      all_goals exact ⟨hw, ht⟩
    | thread t =>
      have h0 := ht t
      simp only [LiveSettings.step, LiveSettings.stepThread]
      cases hx : s.thread t <;> simp only [hx] at h0 ⊢ <;> (repeat' split) <;>
      first
        | exact ⟨hw, ht⟩
        | (refine ⟨hw, fun t' => ?_⟩
           by_cases h : t' = t
           · subst h; simp_all [upd]
           · simpa [upd, h] using ht t')

/-- **C110**, element-wise calls: any number of threads make threaded calls while `thread_enable`, `thread_disable`, `thread_setworkers` and `thread_zigzag` are
called at any moments, any number of workers: when an element-wise call on `n` elements is over, every element was processed exactly once, with the number of
workers (`w`) and the direction (`z`) that were set when the call read them; never more than 15 workers, nor more than there are. -/
theorem C110_elementwise (W : Nat) (l : List Act) (hl : LiveSettings.CalmHistory W l) (t i n : Nat) (req : Int) (w z : Nat)
    (ht : (LiveSettings.exec W l).thread t = .finish i (.ufunc n req) w z) :
    w ≤ 15 ∧ w ≤ W - 1 ∧ ∃ st, (LiveSettings.exec W l).slot (i % 1024) = .ufunc (ufuncItem n req w z) st ∧
      ExactlyOnce n (Work.kernelCalls (ufuncItem n req w z) st) := by
  obtain ⟨l', hc, hs, hf⟩ := live_callers W l hl
  have hr := (settings_range W l).2 t
  rw [ht] at hr
  refine ⟨hr.1, hr.2, ?_⟩
  rw [← hs]
  exact C40_concurrent_ufuncs_partial l' hc t i n req w z (hf t i _ w z ht)

/-- **C110**, calls that work chunk by chunk (indexing, `arange`, `is_sorted`). -/
theorem C110_chunks (W : Nat) (l : List Act) (hl : LiveSettings.CalmHistory W l) (t i n : Nat) (req : Int) (w z : Nat)
    (ht : (LiveSettings.exec W l).thread t = .finish i (.counter ((n + 16383) / 16384) false req) w z) :
    ∃ wk st, wk ≤ 15 ∧ (LiveSettings.exec W l).slot (i % 1024) = .counter (chunkCfg n wk) st ∧ ExactlyOnce n (chunkCalls n st) := by
  obtain ⟨l', hc, hs, hf⟩ := live_callers W l hl
  have hr := (settings_range W l).2 t
  rw [ht] at hr
  obtain ⟨st, h1, h2⟩ := C40_concurrent_chunks_partial l' hc t i n _ (hf t i _ w z ht)
  refine ⟨_, st, ?_, by rw [← hs]; exact h1, h2⟩
  have := hr.1
  simp only [LiveSettings.wakeup]; split <;> omega

/-- **C110**, calls that consist of `n` tasks (sorts, record conversion): each task was executed once. -/
theorem C110_tasks (W : Nat) (l : List Act) (hl : LiveSettings.CalmHistory W l) (t i n : Nat) (skip0 : Bool) (req : Int) (w z : Nat)
    (ht : (LiveSettings.exec W l).thread t = .finish i (.counter n skip0 req) w z) :
    ∃ wk st, wk ≤ 15 ∧ (LiveSettings.exec W l).slot (i % 1024) = .counter { n := n, skip0 := skip0, wakeup := wk } st ∧ List.Perm st.log (List.range n) := by
  obtain ⟨l', hc, hs, hf⟩ := live_callers W l hl
  have hr := (settings_range W l).2 t
  rw [ht] at hr
  obtain ⟨st, h1, h2⟩ := C40_concurrent_tasks_partial l' hc t i _ (hf t i _ w z ht)
  refine ⟨_, st, ?_, by rw [← hs]; exact h1, h2⟩
  have := hr.1
  simp only [LiveSettings.wakeup]; split <;> omega

/-- Thread 1 makes an element-wise call alone on 4 worker threads; in the middle of it another thread turns threading off, changes the number of workers and
turns the zigzag mode on. -/
def changing (n : Nat) : List Act :=
  [.start 1 true (.ufunc n 3), .thread 1, .disable, .thread 1, .zigRead, .zigWrite, .thread 1, .setWorkers 1, .thread 1, .thread 1, .thread 1] ++
  List.replicate 40 (.thread 1)

theorem live_append (W : Nat) (l : List Act) (a : Act) : LiveSettings.exec W (l ++ [a]) = LiveSettings.step W (LiveSettings.exec W l) a := by
  rw [LiveSettings.exec, List.foldl_append]; rfl

theorem main_le_length (W : Nat) (l : List Act) : (LiveSettings.exec W l).main ≤ l.length := by
  induction l using List.reverseRecOn with
  | nil => exact Nat.le_refl _
  | append_singleton l a ih =>
    have key : (LiveSettings.step W (LiveSettings.exec W l) a).main ≤ (LiveSettings.exec W l).main + 1 := by
      generalize LiveSettings.exec W l = s
      cases a <;> simp only [LiveSettings.step, LiveSettings.stepWorker, LiveSettings.stepThread] <;> (repeat' split) <;> simp
    rw [live_append, List.length_append, List.length_singleton]; omega

theorem live_calm_short (W : Nat) (l : List Act) (h : l.length < 1024) : LiveSettings.CalmHistory W l := by
  intro p hp t i _
  have h1 := main_le_length W p
  have h2 := hp.length_le
  omega

/-- In the example the call ends with the values read in the middle of it: one worker and the zigzag mode, both set after the call had begun. -/
example : (LiveSettings.exec 4 ((changing 70000).take 47)).thread 1 = .finish 1 (.ufunc 70000 3) 1 3 := by decide +kernel

example : ∃ st, (LiveSettings.exec 4 ((changing 70000).take 47)).slot 1 = .ufunc (ufuncItem 70000 3 1 3) st ∧
    ExactlyOnce 70000 (Work.kernelCalls (ufuncItem 70000 3 1 3) st) :=
  (C110_elementwise 4 _ (live_calm_short _ _ (by decide +kernel)) 1 1 70000 3 1 3 (by decide +kernel)).2.2

/-- Thread 1 makes the call `c` together with two workers while the settings are changed. -/
def shared2 (c : Call) : List Act :=
  [.setWorkers 2, .start 1 true c, .thread 1, .thread 1, .disable, .thread 1, .thread 1, .thread 1, .zigRead, .zigWrite, .thread 1] ++
  (List.replicate 30 [Act.thread 1, .worker 1, .worker 2]).flatten

example : ∃ wk st, wk ≤ 15 ∧ (LiveSettings.exec 4 ((shared2 (.counter 5 false 0)).take 63)).slot 1 = .counter (chunkCfg 70000 wk) st ∧ ExactlyOnce 70000 (chunkCalls 70000 st) :=
  C110_chunks 4 _ (live_calm_short _ _ (by decide +kernel)) 1 1 70000 0 2 0 (by decide +kernel)

example : ∃ wk st, wk ≤ 15 ∧ (LiveSettings.exec 4 ((shared2 (.counter 5 true 0)).take 66)).slot 1 = .counter { n := 5, skip0 := true, wakeup := wk } st ∧
    List.Perm st.log (List.range 5) :=
  C110_tasks 4 _ (live_calm_short _ _ (by decide +kernel)) 1 1 5 true 0 2 0 (by decide +kernel)

/-- **C110**, `thread_disable`: a call begun after `thread_disable()` (and before the next `thread_enable()`) is never shared with workers, whatever is going on
in other threads; calls begun before may still be. -/
theorem C110_disabled_serial (W : Nat) (l later : List Act) (h : Act.enable ∉ later) (t : Nat) (ht : ((LiveSettings.exec W l).thread t).sharing = false) :
    ((LiveSettings.exec W (l ++ .disable :: later)).thread t).sharing = false := by
  have key : ∀ later, Act.enable ∉ later → (LiveSettings.exec W (l ++ .disable :: later)).noThreading = true ∧
      ((LiveSettings.exec W (l ++ .disable :: later)).thread t).sharing = false := by
    intro later
    induction later using List.reverseRecOn with
    | nil => intro _; rw [live_append]; exact ⟨rfl, ht⟩
    | append_singleton later a ih =>
      intro hn
      rw [show l ++ Act.disable :: (later ++ [a]) = (l ++ .disable :: later) ++ [a] by simp, live_append]
      have ha : a ≠ .enable := fun e => hn (by simp [e])
      obtain ⟨h1, h2⟩ := ih fun e => hn (by simp [e])
      generalize LiveSettings.exec W (l ++ .disable :: later) = s at h1 h2
      cases a with
      | enable => exact absurd rfl ha
      | disable => exact ⟨rfl, h2⟩
      | setWorkers k => exact ⟨h1, h2⟩
      | zigRead => simp only [LiveSettings.step]; split <;> exact ⟨h1, h2⟩
      | zigWrite => simp only [LiveSettings.step]; split <;> exact ⟨h1, h2⟩
      | worker w =>
        simp only [LiveSettings.step, LiveSettings.stepWorker]
        repeat' split
        all_goals exact ⟨h1, h2⟩
      | start t' lk c =>
        simp only [LiveSettings.step]; split
        · refine ⟨h1, ?_⟩
          by_cases e : t = t'
          · subst e; simp [upd, LiveSettings.Thread.sharing]
          · simpa [upd, e] using h2
        · exact ⟨h1, h2⟩
      | giveUp t' =>
        simp only [LiveSettings.step]; split
        · refine ⟨h1, ?_⟩
          by_cases e : t = t'
          · subst e; simp [upd, LiveSettings.Thread.sharing]
          · simpa [upd, e] using h2
        · exact ⟨h1, h2⟩
      | thread t' =>
        by_cases e : t = t'
        · subst e
          simp only [LiveSettings.step, LiveSettings.stepThread]
          cases hx : s.thread t <;> simp_all [LiveSettings.Thread.sharing, upd]
        · simp only [LiveSettings.step, LiveSettings.stepThread]
          cases hx : s.thread t' <;> (try simp only []) <;> (repeat' split) <;> simp_all [upd]
  exact (key later h).2

example : ((LiveSettings.exec 4 ([.start 1 true (.ufunc 70000 3)] ++ .disable :: [.thread 1, .thread 1])).thread 1).sharing = false :=
  C110_disabled_serial 4 _ _ (by decide) 1 rfl

/-- **C110**, `thread_setworkers`: no call in progress ever changes the number of workers: it is what was last asked for, within the limits. -/
theorem C110_workers (W : Nat) (l : List Act) :
    (LiveSettings.exec W l).wake = match LiveSettings.lastAsked l with
      | none => min 11 (W - 1)
      | some k => min (min (max k 1).toNat 15) (W - 1) := by
  have la : ∀ (l : List Act) a, LiveSettings.lastAsked (l ++ [a]) = match a with | .setWorkers k => some k | _ => LiveSettings.lastAsked l := by
    intro l a
    induction l with
    | nil => cases a <;> rfl
    | cons b l ih =>
      simp only [List.cons_append, LiveSettings.lastAsked]
      rw [ih]
      cases a <;> rfl
  induction l using List.reverseRecOn with
  | nil => rfl
  | append_singleton l a ih =>
    rw [live_append, la]
    cases a with
    | setWorkers k => rfl
    | enable => exact ih
    | disable => exact ih
    | zigRead => simp only [LiveSettings.step]; split <;> exact ih
    | zigWrite => simp only [LiveSettings.step]; split <;> exact ih
    | start t lk c => simp only [LiveSettings.step]; split <;> exact ih
    | giveUp t => simp only [LiveSettings.step]; split <;> exact ih
    | worker w =>
      refine Eq.trans ?_ ih
      simp only [LiveSettings.step, LiveSettings.stepWorker]; (repeat' split) <;> rfl
    | thread t =>
      refine Eq.trans ?_ ih
      simp only [LiveSettings.step, LiveSettings.stepThread]; (repeat' split) <;> rfl

example : (LiveSettings.exec 16 [.setWorkers 3, .start 1 true (.ufunc 70000 3), .setWorkers 40, .thread 1]).wake = 15 := by rw [C110_workers]; decide

/-- **C110**, `thread_zigzag` (partial: if no call is just between testing and storing the flag when `thread_zigzag` stores it): the answers alternate, True for on,
False for off, whatever calls run. -/
theorem C110_zigzag_partial (W : Nat) (l : List Act)
    (h : ∀ k, l[k]? = some .zigWrite → ∀ t, ((LiveSettings.exec W (l.take k)).thread t).flipping = false) :
    LiveSettings.Alternate (LiveSettings.exec W l).answers := by
  replace h : ∀ p q, l = p ++ .zigWrite :: q → ∀ t, ((LiveSettings.exec W p).thread t).flipping = false := by
    intro p q e t
    have := h p.length (by rw [e]; simp) t
    rwa [e, List.take_left] at this
  have key : LiveSettings.Alternate (LiveSettings.exec W l).answers ∧
      ((LiveSettings.exec W l).zigzag = 0 ↔ (LiveSettings.exec W l).answers.head? ≠ some true) ∧
      ((LiveSettings.exec W l).zigzag = 0 ∨ (LiveSettings.exec W l).zigzag = 2 ∨ (LiveSettings.exec W l).zigzag = 3) ∧
      (∀ b, (LiveSettings.exec W l).toggle = some b → (b = true ↔ (LiveSettings.exec W l).zigzag = 0)) ∧
      (∀ t, ((LiveSettings.exec W l).thread t).flipping = true → (LiveSettings.exec W l).zigzag ≠ 0) ∧
      (∀ t i c w z v, (LiveSettings.exec W l).thread t = .zstore i c w z v → v = 2 ∨ v = 3) := by
    induction l using List.reverseRecOn with
    | nil =>
      refine ⟨trivial, by simp [LiveSettings.exec, LiveSettings.init], Or.inl rfl, ?_, ?_, ?_⟩
      · intro b hb; cases hb
      · intro t ht; cases ht
      · intro t i c w z v ht; cases ht
    | append_singleton l a ih =>
      have h' : ∀ p q, l = p ++ .zigWrite :: q → ∀ t, ((LiveSettings.exec W p).thread t).flipping = false := by
        intro p q e; exact h p (q ++ [a]) (by rw [e]; simp)
      have hl : a = .zigWrite → ∀ t, ((LiveSettings.exec W l).thread t).flipping = false := by
        intro e; exact h l [] (by rw [e])
      obtain ⟨i1, i2, i3, i4, i5, i6⟩ := ih h'
      rw [live_append]
      generalize LiveSettings.exec W l = s at i1 i2 i3 i4 i5 i6 hl
      cases a with
      | enable => exact ⟨i1, i2, i3, i4, i5, i6⟩
      | disable => exact ⟨i1, i2, i3, i4, i5, i6⟩
      | setWorkers k => exact ⟨i1, i2, i3, i4, i5, i6⟩
      | zigRead =>
        simp only [LiveSettings.step]; split
        · refine ⟨i1, i2, i3, ?_, i5, i6⟩
          intro b hb
          simp only [Option.some.injEq] at hb
          subst hb; simp
        · exact ⟨i1, i2, i3, i4, i5, i6⟩
      | zigWrite =>
        have hq := hl rfl
        simp only [LiveSettings.step]; split
        · exact ⟨i1, i2, i3, i4, i5, i6⟩
        · rename_i b hb
          have hbz := i4 b hb
          refine ⟨⟨?_, i1⟩, ?_, ?_, ?_, ?_, i6⟩
          · cases b
            · have hz : s.zigzag ≠ 0 := by simpa using hbz
              have : s.answers.head? = some true := by
                by_cases e : s.answers.head? = some true
                · exact e
                · exact absurd (i2.2 e) hz
              rw [this]; rfl
            · have hz := i2.1 (hbz.1 rfl)
              revert hz
              rcases s.answers.head? with _ | ⟨_ | _⟩ <;> simp
          · cases b <;> simp
          · cases b <;> simp
          · intro b' hb'; cases hb'
          · intro t ht
            rw [hq t] at ht; cases ht
      | start t lk c =>
        simp only [LiveSettings.step]; split
        · refine ⟨i1, i2, i3, i4, ?_, ?_⟩
          · intro t' ht'
            by_cases e : t' = t
            · subst e; simp [upd, LiveSettings.Thread.flipping] at ht'
            · exact i5 t' (by simpa [upd, e] using ht')
          · intro t' i c' w z v ht'
            by_cases e : t' = t
            · subst e; simp [upd] at ht'
            · exact i6 t' i c' w z v (by simpa [upd, e] using ht')
        · exact ⟨i1, i2, i3, i4, i5, i6⟩
      | giveUp t =>
        simp only [LiveSettings.step]; split
        · refine ⟨i1, i2, i3, i4, ?_, ?_⟩
          · intro t' ht'
            by_cases e : t' = t
            · subst e; simp [upd, LiveSettings.Thread.flipping] at ht'
            · exact i5 t' (by simpa [upd, e] using ht')
          · intro t' i c' w z v ht'
            by_cases e : t' = t
            · subst e; simp [upd] at ht'
            · exact i6 t' i c' w z v (by simpa [upd, e] using ht')
        · exact ⟨i1, i2, i3, i4, i5, i6⟩
      | worker w => simp only [LiveSettings.step, LiveSettings.stepWorker]; (repeat' split) <;> exact ⟨i1, i2, i3, i4, i5, i6⟩
      | thread t =>
        have plain : ∀ X : LiveSettings.Thread, X.flipping = false → (∀ t', (upd s.thread t X t').flipping = true → s.zigzag ≠ 0) ∧
            (∀ t' i c w z v, upd s.thread t X t' = .zstore i c w z v → v = 2 ∨ v = 3) := by
          intro X hX
          refine ⟨?_, ?_⟩
          · intro t' ht'
            by_cases e : t' = t
            · subst e; simp [upd, hX] at ht'
            · exact i5 t' (by simpa [upd, e] using ht')
          · intro t' i c' w z v ht'
            by_cases e : t' = t
            · subst e
              simp only [upd, if_pos] at ht'
              subst ht'; cases hX
            · exact i6 t' i c' w z v (by simpa [upd, e] using ht')
        simp only [LiveSettings.step, LiveSettings.stepThread]
        cases hx : s.thread t with
        | ztest i c w z =>
          simp only []
          by_cases hz : s.zigzag ≠ 0
          · rw [if_pos hz]
            refine ⟨i1, i2, i3, i4, fun _ _ => hz, ?_⟩
            intro t' i c' w z v ht'
            by_cases e : t' = t
            · subst e; simp [upd] at ht'
            · exact i6 t' i c' w z v (by simpa [upd, e] using ht')
          · rw [if_neg hz]
            exact ⟨i1, i2, i3, i4, (plain (.publish i c w z) rfl).1, (plain (.publish i c w z) rfl).2⟩
        | zload i c w z =>
          simp only []
          have hz := i5 t (by rw [hx]; rfl)
          refine ⟨i1, i2, i3, i4, fun _ _ => hz, ?_⟩
          intro t' i' c' w' z' v ht'
          by_cases e : t' = t
          · subst e
            simp only [upd, if_pos, LiveSettings.Thread.zstore.injEq] at ht'
            rcases i3 with h3 | h3 | h3
            · exact absurd h3 hz
            · rw [h3] at ht'; have := ht'.2.2.2.2; right; rw [← this]; rfl
            · rw [h3] at ht'; have := ht'.2.2.2.2; left; rw [← this]; rfl
          · exact i6 t' i' c' w' z' v (by simpa [upd, e] using ht')
        | zstore i c w z v =>
          simp only []
          have hz := i5 t (by rw [hx]; rfl)
          have hv := i6 t i c w z v hx
          have hv0 : v ≠ 0 := by omega
          refine ⟨i1, ?_, Or.inr hv, ?_, fun _ _ => hv0, (plain (.publish i c w z) rfl).2⟩
          · constructor
            · intro e; exact absurd e hv0
            · intro e; exact absurd (i2.2 e) hz
          · intro b hb
            have := i4 b hb
            constructor
            · intro e; exact absurd (this.1 e) hz
            · intro e; exact absurd e hv0
        | test lk c => exact ⟨i1, i2, i3, i4, plain _ (by split <;> [rfl; (split <;> rfl)])⟩
        | want c => simp only []; split <;> exact ⟨i1, i2, i3, i4, plain _ rfl⟩
        | inCall i c w z => simp only []; split <;> first | exact ⟨i1, i2, i3, i4, plain _ rfl⟩ | exact ⟨i1, i2, i3, i4, i5, i6⟩
        | idle => exact ⟨i1, i2, i3, i4, i5, i6⟩
        | _ => exact ⟨i1, i2, i3, i4, plain _ rfl⟩
  exact key.1

theorem live_untouched (W : Nat) (l : List Act) (t : Nat) (h : ∀ lk c, Act.start t lk c ∉ l) : (LiveSettings.exec W l).thread t = .idle := by
  induction l using List.reverseRecOn with
  | nil => rfl
  | append_singleton l a ih =>
    have ih := ih fun lk c hc => h lk c (by simp [hc])
    have ha : ∀ lk c, a ≠ .start t lk c := fun lk c e => h lk c (by simp [e])
    rw [live_append]
    generalize LiveSettings.exec W l = s at ih
    cases a with
    | start t' lk c =>
      have e : t ≠ t' := fun e => ha lk c (by rw [e])
      simp only [LiveSettings.step]; split <;> simp [upd, e, ih]
    | worker w => simp only [LiveSettings.step, LiveSettings.stepWorker]; (repeat' split) <;> exact ih
    | zigRead => simp only [LiveSettings.step]; split <;> exact ih
    | zigWrite => simp only [LiveSettings.step]; split <;> exact ih
    | giveUp t' =>
      simp only [LiveSettings.step]
      by_cases e : t = t'
      · subst e; rw [ih]; exact ih
      · split <;> simp [upd, e, ih]
    | thread t' =>
      by_cases e : t = t'
      · subst e; simp only [LiveSettings.step, LiveSettings.stepThread, ih]
      · simp only [LiveSettings.step, LiveSettings.stepThread]
        (repeat' split) <;> simp [upd, e, ih]
    | _ => exact ih

/-- A call between two calls of `thread_zigzag`. -/
def zigzagCalm : List Act := [.zigRead, .zigWrite, .start 1 true (.ufunc 70000 3)] ++ List.replicate 10 (.thread 1) ++ [.zigRead, .zigWrite]

example : LiveSettings.Alternate (LiveSettings.exec 4 zigzagCalm).answers ∧ (LiveSettings.exec 4 zigzagCalm).answers = [false, true] := by
  refine ⟨C110_zigzag_partial 4 _ ?_, by decide +kernel⟩
  intro k hk t
  by_cases ht : t = 1
  · subst ht
    have : ∀ k < 15, zigzagCalm[k]? = some .zigWrite → ((LiveSettings.exec 4 (zigzagCalm.take k)).thread 1).flipping = false := by decide +kernel
    by_cases h15 : k < 15
    · exact this k h15 hk
    · have : zigzagCalm.length = 15 := by decide +kernel
      rw [List.getElem?_eq_none (by omega)] at hk; cases hk
  · rw [live_untouched 4 _ t (fun lk c h => ?_)]
    · rfl
    · have := List.mem_of_mem_take h
      simp [zigzagCalm] at this
      exact ht this.1

/-- The history: `thread_zigzag()` turns the mode on; thread 1 makes a call and has just read the flag to flip it when `thread_zigzag()` turns the mode off; then
the call goes on. -/
def zigzagRace : List Act :=
  [.zigRead, .zigWrite, .start 1 true (.ufunc 70000 3), .thread 1, .thread 1, .thread 1, .thread 1, .thread 1, .thread 1, .thread 1, .thread 1, .thread 1,
   .zigRead, .zigWrite, .thread 1]

/-- **C110 is violated** for `thread_zigzag`: the flip of a running call undoes it.  The second call answered False (off), but the mode is on, and a third call
answers False again. -/
theorem C110_zigzag_violated :
    (LiveSettings.exec 4 zigzagRace).answers = [false, true] ∧ (LiveSettings.exec 4 zigzagRace).zigzag = 2 ∧
    (LiveSettings.exec 4 (zigzagRace ++ [.zigRead, .zigWrite])).answers = [false, false, true] := by decide +kernel

/-- The history: as before, but the mode is turned off between the test and the read of thread 1's call, which leaves the flag at 1; a call of thread 2 is about to
store 0 when `thread_zigzag()` is called twice, to turn the mode off and on again. -/
def zigzagRaceOn : List Act :=
  [.zigRead, .zigWrite, .start 1 true (.ufunc 70000 3), .thread 1, .thread 1, .thread 1, .thread 1, .thread 1, .thread 1, .thread 1, .thread 1,
   .zigRead, .zigWrite, .thread 1, .thread 1,
   .start 2 true (.ufunc 70000 3), .thread 2, .thread 2, .thread 2, .thread 2, .thread 2, .thread 2, .thread 2, .thread 2, .thread 2,
   .zigRead, .zigWrite, .zigRead, .zigWrite, .thread 2]

/-- **C110 is violated**, the other way round: the last answer was True (on), but the mode is off. -/
theorem C110_zigzag_on_violated :
    (LiveSettings.exec 4 zigzagRaceOn).answers = [true, false, false, true] ∧ (LiveSettings.exec 4 zigzagRaceOn).zigzag = 0 := by decide +kernel

/-- What a step does to thread `t`. -/
theorem live_step_thread (W : Nat) (s : LiveSettings.St) (a : Act) (t : Nat) (h : a ≠ .thread t) (hi : s.thread t ≠ .idle) :
    (LiveSettings.step W s a).thread t = s.thread t ∨ (LiveSettings.step W s a).thread t = .idle := by
  cases a with
  | enable => exact Or.inl rfl
  | disable => exact Or.inl rfl
  | setWorkers k => exact Or.inl rfl
  | zigRead => simp only [LiveSettings.step]; split <;> exact Or.inl rfl
  | zigWrite => simp only [LiveSettings.step]; split <;> exact Or.inl rfl
  | worker w => left; simp only [LiveSettings.step, LiveSettings.stepWorker]; (repeat' split) <;> rfl
  | start t' lk c =>
    left
    simp only [LiveSettings.step]
    by_cases e : t = t'
    · subst e
      split
      · rename_i hx; exact absurd hx hi
      · rfl
    · split <;> simp [upd, e]
  | giveUp t' =>
    simp only [LiveSettings.step]
    by_cases e : t = t'
    · subst e; split <;> simp [upd]
    · left; split <;> simp [upd, e]
  | thread t' =>
    have e : t ≠ t' := fun e => h (by rw [e])
    left
    simp only [LiveSettings.step, LiveSettings.stepThread]
    (repeat' split) <;> simp [upd, e]

/-- The next step of thread `t`, if it does not become idle. -/
theorem live_next (W : Nat) (σ : Nat → Act) (t m : Nat) (hth : ∃ m', m ≤ m' ∧ σ m' = .thread t) (hi : ∀ k, m ≤ k → (LiveSettings.states W σ k).thread t ≠ .idle) :
    ∃ m', m ≤ m' ∧ σ m' = .thread t ∧ (LiveSettings.states W σ m').thread t = (LiveSettings.states W σ m).thread t := by
  obtain ⟨m', hm, hσ⟩ := hth
  obtain ⟨d, rfl⟩ := Nat.exists_eq_add_of_le hm
  induction d generalizing m with
  | zero => exact ⟨m, Nat.le_refl _, hσ, rfl⟩
  | succ d ih =>
    by_cases h0 : σ m = .thread t
    · exact ⟨m, Nat.le_refl _, h0, rfl⟩
    · obtain ⟨m', h1, h2, h3⟩ := ih (m + 1) (fun k hk => hi k (by omega)) (by omega) (by rwa [Nat.add_assoc, Nat.add_comm 1 d])
      refine ⟨m', by omega, h2, ?_⟩
      rw [h3]
      rcases live_step_thread W (LiveSettings.states W σ m) (σ m) t h0 (hi m (Nat.le_refl _)) with e | e
      · exact e
      · exact absurd e (hi (m + 1) (by omega))

/-- Once shared, an operation stays so until it is over. -/
theorem live_sharing (W : Nat) (σ : Nat → Act) (t m : Nat) (hi : ∀ k, m ≤ k → (LiveSettings.states W σ k).thread t ≠ .idle)
    (h : ((LiveSettings.states W σ m).thread t).sharing = true) (d : Nat) : ((LiveSettings.states W σ (m + d)).thread t).sharing = true := by
  induction d with
  | zero => exact h
  | succ d ih =>
    have hn := hi (m + (d + 1)) (by omega)
    rw [← Nat.add_assoc] at hn ⊢
    by_cases h0 : σ (m + d) = .thread t
    · rw [LiveSettings.states, h0] at hn ⊢
      simp only [LiveSettings.step, LiveSettings.stepThread] at hn ⊢
      cases hx : (LiveSettings.states W σ (m + d)).thread t <;> simp only [hx] at hn ih ⊢ <;> (repeat' split) <;>
        simp_all [upd, LiveSettings.Thread.sharing]
    · rcases live_step_thread W (LiveSettings.states W σ (m + d)) (σ (m + d)) t h0 (hi _ (by omega)) with e | e
      · rw [LiveSettings.states, e]; exact ih
      · exact absurd e hn

/-- The steps of a shared operation are infinitely often steps of `Verif.Model.Callers`. -/
theorem live_external (W : Nat) (σ : Nat → Act) (t m : Nat) (hth : ∀ k, ∃ k', k ≤ k' ∧ σ k' = .thread t)
    (hi : ∀ k, m ≤ k → (LiveSettings.states W σ k).thread t ≠ .idle) (h : ((LiveSettings.states W σ m).thread t).sharing = true) (k : Nat) :
    ∃ k', k ≤ k' ∧ LiveSettings.act W σ k' = .thread t := by
  have hi' : ∀ a, m ≤ a → ∀ k, a ≤ k → (LiveSettings.states W σ k).thread t ≠ .idle := fun a ha k hk => hi k (by omega)
  have ext : ∀ a, σ a = .thread t → ∀ X, (LiveSettings.states W σ a).thread t = X →
      (match X with | .idle | .test _ _ | .alone _ | .zig _ _ _ | .size _ _ _ | .ztest _ _ _ _ | .zload _ _ _ _ | .zstore _ _ _ _ _ => False | _ => True) →
      LiveSettings.act W σ a = .thread t := by
    intro a ha X hX hx
    simp only [LiveSettings.act, ha, hX]
    cases X <;> simp_all
  have own : ∀ a, σ a = .thread t → (LiveSettings.states W σ (a + 1)).thread t = (LiveSettings.stepThread (LiveSettings.states W σ a) t).thread t := by
    intro a ha; rw [LiveSettings.states, ha]; rfl
  have go : ∀ a, m ≤ a → ∃ b, a ≤ b ∧ σ b = .thread t ∧ (LiveSettings.states W σ b).thread t = (LiveSettings.states W σ a).thread t :=
    fun a ha => live_next W σ t a (hth a) (hi' a ha)
  -- from each internal state
  have pub : ∀ a, m ≤ a → ∀ i c w z, (LiveSettings.states W σ a).thread t = .publish i c w z → ∃ b, a ≤ b ∧ LiveSettings.act W σ b = .thread t := by
    intro a ha i c w z hx
    obtain ⟨b, h1, h2, h3⟩ := go a ha
    exact ⟨b, h1, ext b h2 _ (h3.trans hx) trivial⟩
  have sto : ∀ a, m ≤ a → ∀ i c w z v, (LiveSettings.states W σ a).thread t = .zstore i c w z v → ∃ b, a ≤ b ∧ LiveSettings.act W σ b = .thread t := by
    intro a ha i c w z v hx
    obtain ⟨b, h1, h2, h3⟩ := go a ha
    have e := own b h2
    simp only [LiveSettings.stepThread, h3.trans hx, upd, if_pos] at e
    obtain ⟨b', h4, h5⟩ := pub (b + 1) (by omega) _ _ _ _ e
    exact ⟨b', by omega, h5⟩
  have loa : ∀ a, m ≤ a → ∀ i c w z, (LiveSettings.states W σ a).thread t = .zload i c w z → ∃ b, a ≤ b ∧ LiveSettings.act W σ b = .thread t := by
    intro a ha i c w z hx
    obtain ⟨b, h1, h2, h3⟩ := go a ha
    have e := own b h2
    simp only [LiveSettings.stepThread, h3.trans hx, upd, if_pos] at e
    obtain ⟨b', h4, h5⟩ := sto (b + 1) (by omega) _ _ _ _ _ e
    exact ⟨b', by omega, h5⟩
  have key : ∀ a, m ≤ a → ∃ b, a ≤ b ∧ LiveSettings.act W σ b = .thread t := by
    intro a ha
    obtain ⟨b, h1, h2, h3⟩ := go a ha
    have hsh : ((LiveSettings.states W σ b).thread t).sharing = true := by
      have := live_sharing W σ t m hi h (b - m)
      rwa [Nat.add_sub_cancel' (by omega)] at this
    have e := own b h2
    cases hx : (LiveSettings.states W σ b).thread t with
    | idle => rw [hx] at hsh; cases hsh
    | test lk c => rw [hx] at hsh; cases hsh
    | alone c => rw [hx] at hsh; cases hsh
    | zig lk i c =>
      simp only [LiveSettings.stepThread, hx, upd, if_pos] at e
      obtain ⟨b', h4, h5, h6⟩ := go (b + 1) (by omega)
      exact ⟨b', by omega, ext b' h5 _ (h6.trans e) trivial⟩
    | size i c z =>
      simp only [LiveSettings.stepThread, hx, upd, if_pos] at e
      obtain ⟨b', h4, h5, h6⟩ := go (b + 1) (by omega)
      exact ⟨b', by omega, ext b' h5 _ (h6.trans e) trivial⟩
    | ztest i c w z =>
      simp only [LiveSettings.stepThread, hx, upd, if_pos] at e
      by_cases hz : (LiveSettings.states W σ b).zigzag ≠ 0
      · rw [if_pos hz] at e
        obtain ⟨b', h4, h5⟩ := loa (b + 1) (by omega) _ _ _ _ e
        exact ⟨b', by omega, h5⟩
      · rw [if_neg hz] at e
        obtain ⟨b', h4, h5⟩ := pub (b + 1) (by omega) _ _ _ _ e
        exact ⟨b', by omega, h5⟩
    | zload i c w z => obtain ⟨b', h4, h5⟩ := loa b (by omega) _ _ _ _ hx; exact ⟨b', by omega, h5⟩
    | zstore i c w z v => obtain ⟨b', h4, h5⟩ := sto b (by omega) _ _ _ _ _ hx; exact ⟨b', by omega, h5⟩
    | _ => exact ⟨b, h1, ext b h2 _ hx trivial⟩
  obtain ⟨b, h1, h2⟩ := key (max k m) (by omega)
  exact ⟨b, by omega, h2⟩

/-- Each call of thread `t` that is shared with the workers ends if the corresponding one of `Verif.Model.Callers` does. -/
theorem live_ends (W : Nat) (σ : Nat → Act) (t m : Nat) (hth : ∀ k, ∃ k', k ≤ k' ∧ σ k' = .thread t) (c : Call)
    (h : ((LiveSettings.states W σ m).thread t).call = some c)
    (hend : ∀ m w z, (∀ k, ∃ k', k ≤ k' ∧ LiveSettings.act W σ k' = .thread t) → ((Callers.states (LiveSettings.act W σ) m).thread t).job = some (c.job w z) →
      ∃ m', m ≤ m' ∧ (Callers.states (LiveSettings.act W σ) m').thread t = .idle) :
    ∃ m', m ≤ m' ∧ (LiveSettings.states W σ m').thread t = .idle := by
  by_contra hcon
  have hi : ∀ k, m ≤ k → (LiveSettings.states W σ k).thread t ≠ .idle := fun k hk e => hcon ⟨k, hk, e⟩
  -- a shared state with the same call
  have shared : ∃ a, m ≤ a ∧ ((LiveSettings.states W σ a).thread t).sharing = true ∧ ((LiveSettings.states W σ a).thread t).call = some c := by
    by_cases hs : ((LiveSettings.states W σ m).thread t).sharing = true
    · exact ⟨m, Nat.le_refl _, hs, h⟩
    · obtain ⟨b, h1, h2, h3⟩ := live_next W σ t m (hth m) hi
      have e : (LiveSettings.states W σ (b + 1)).thread t = (LiveSettings.stepThread (LiveSettings.states W σ b) t).thread t := by
        rw [LiveSettings.states, h2]; rfl
      have hn := hi (b + 1) (by omega)
      cases hx : (LiveSettings.states W σ m).thread t with
      | idle => exact absurd hx (hi m (Nat.le_refl _))
      | alone c' =>
        simp only [LiveSettings.stepThread, h3.trans hx, upd, if_pos] at e
        exact absurd e hn
      | test lk c' =>
        rw [hx] at h
        simp only [LiveSettings.Thread.call, Option.some.injEq] at h
        subst h
        simp only [LiveSettings.stepThread, h3.trans hx, upd, if_pos] at e
        by_cases hno : (LiveSettings.states W σ b).noThreading = true
        · rw [if_pos hno] at e
          obtain ⟨b2, g1, g2, g3⟩ := live_next W σ t (b + 1) (hth _) (fun k hk => hi k (by omega))
          have e2 : (LiveSettings.states W σ (b2 + 1)).thread t = (LiveSettings.stepThread (LiveSettings.states W σ b2) t).thread t := by
            rw [LiveSettings.states, g2]; rfl
          simp only [LiveSettings.stepThread, g3.trans e, upd, if_pos] at e2
          exact absurd e2 (hi (b2 + 1) (by omega))
        · rw [if_neg hno] at e
          refine ⟨b + 1, by omega, ?_⟩
          rw [e]; cases lk <;> exact ⟨rfl, rfl⟩
      | _ => rw [hx] at hs; exact absurd rfl hs
  obtain ⟨a, ha, hsh, hc⟩ := shared
  have hi' : ∀ k, a ≤ k → (LiveSettings.states W σ k).thread t ≠ .idle := fun k hk => hi k (by omega)
  have hj : ∃ w z, ((Callers.states (LiveSettings.act W σ) a).thread t).job = some (c.job w z) := by
    rw [LiveSettings.abs_states]
    simp only [LiveSettings.abs]
    cases hx : (LiveSettings.states W σ a).thread t <;> rw [hx] at hc hsh <;>
      simp only [LiveSettings.Thread.call, Option.some.injEq, LiveSettings.Thread.sharing, reduceCtorEq, Bool.false_eq_true] at hc hsh <;> subst hc <;> exact ⟨_, _, rfl⟩
  obtain ⟨w, z, hj⟩ := hj
  obtain ⟨b, hb, e⟩ := hend a w z (live_external W σ t a hth hi' hsh) hj
  have hsh2 := live_sharing W σ t a hi' hsh (b - a)
  rw [Nat.add_sub_cancel' hb] at hsh2
  rw [LiveSettings.abs_states] at e
  simp only [LiveSettings.abs] at e
  cases hx : (LiveSettings.states W σ b).thread t <;> rw [hx] at e hsh2 <;> simp [LiveSettings.absT, LiveSettings.Thread.sharing] at e hsh2

theorem live_calm (W : Nat) (σ : Nat → Act) (h : ∀ m, LiveSettings.Calm (LiveSettings.states W σ m)) (m : Nat) :
    Callers.Calm (Callers.states (LiveSettings.act W σ) m) := by
  rw [LiveSettings.abs_states]; exact LiveSettings.abs_calm W σ m (h m)

theorem live_workers (W : Nat) (σ : Nat → Act) (h : ∀ w m, w ≠ 0 → ∃ m', m ≤ m' ∧ σ m' = .worker w) (w m : Nat) (hw : w ≠ 0) :
    ∃ m', m ≤ m' ∧ LiveSettings.act W σ m' = .worker w := by
  obtain ⟨m', h1, h2⟩ := h w m hw
  exact ⟨m', h1, by simp only [LiveSettings.act, h2]⟩

/-- **C110**, element-wise calls end: settings are changed at any moments by other threads, every worker and thread `t` keep running: an element-wise call of thread
`t` comes to an end, however far it has got. -/
theorem C110_elementwise_ends (W : Nat) (σ : Nat → Act) (hcalm : ∀ m, LiveSettings.Calm (LiveSettings.states W σ m))
    (hworkers : ∀ w m, w ≠ 0 → ∃ m', m ≤ m' ∧ σ m' = .worker w) (t : Nat) (hthread : ∀ m, ∃ m', m ≤ m' ∧ σ m' = .thread t) (m n : Nat) (req : Int)
    (h : ((LiveSettings.states W σ m).thread t).call = some (.ufunc n req)) :
    ∃ m', m ≤ m' ∧ (LiveSettings.states W σ m').thread t = .idle :=
  live_ends W σ t m hthread _ h fun m w z hth hj =>
    C94_elementwise_ends_partial (LiveSettings.act W σ) (live_calm W σ hcalm) (fun w m hw => live_workers W σ hworkers w m hw) t hth m n req w z hj

/-- **C110**, calls that work chunk by chunk end. -/
theorem C110_chunks_end (W : Nat) (σ : Nat → Act) (hcalm : ∀ m, LiveSettings.Calm (LiveSettings.states W σ m))
    (hworkers : ∀ w m, w ≠ 0 → ∃ m', m ≤ m' ∧ σ m' = .worker w) (t : Nat) (hthread : ∀ m, ∃ m', m ≤ m' ∧ σ m' = .thread t) (m n : Nat) (req : Int)
    (h : ((LiveSettings.states W σ m).thread t).call = some (.counter ((n + 16383) / 16384) false req)) :
    ∃ m', m ≤ m' ∧ (LiveSettings.states W σ m').thread t = .idle :=
  live_ends W σ t m hthread _ h fun m w _ hth hj =>
    C94_chunks_end_partial (LiveSettings.act W σ) (live_calm W σ hcalm) (fun w m hw => live_workers W σ hworkers w m hw) t hth m n (LiveSettings.wakeup req w) hj

/-- An example of a run: thread 1 starts a call; then it, all workers and a thread that keeps changing all settings go on forever. -/
def restless (c : Call) (m : Nat) : Act :=
  if m = 0 then .start 1 true c
  else if m % 3 = 0 then .thread 1
  else if m % 3 = 1 then .worker (Nat.unpair (m / 3)).2
  else match m / 3 % 5 with
    | 0 => .setWorkers (m / 15 : Nat)
    | 1 => .disable
    | 2 => .enable
    | 3 => .zigRead
    | _ => .zigWrite

/-- The thread has no item yet. -/
def early : LiveSettings.Thread → Bool
  | .test _ _ | .want _ | .take _ _ => true
  | _ => false

theorem restless_calm (W : Nat) (c : Call) (m : Nat) : LiveSettings.Calm (LiveSettings.states W (restless c) m) := by
  have main : (LiveSettings.states W (restless c) m).main ≤ 1 ∧
      (0 < m → early ((LiveSettings.states W (restless c) m).thread 1) = true → (LiveSettings.states W (restless c) m).main = 0) := by
    induction m with
    | zero => exact ⟨Nat.zero_le _, fun h => absurd h (by omega)⟩
    | succ m ih =>
      by_cases h0 : m = 0
      · subst h0
        exact ⟨Nat.zero_le _, fun _ _ => rfl⟩
      · obtain ⟨i1, i2⟩ := ih
        replace i2 := i2 (by omega)
        simp only [LiveSettings.states]
        generalize LiveSettings.states W (restless c) m = s at i1 i2
        rw [restless, if_neg h0]
        split
        · simp only [LiveSettings.step, LiveSettings.stepThread]
          cases hx : s.thread 1 <;> simp only [hx] at i2 ⊢ <;> (repeat' split) <;> simp_all [upd, early]
        · split
          · simp only [LiveSettings.step, LiveSettings.stepWorker]
            (repeat' split) <;> exact ⟨i1, fun _ => i2⟩
          · split <;> simp only [LiveSettings.step] <;> (repeat' split) <;> exact ⟨i1, fun _ => i2⟩
  intro t i _
  have := main.1
  omega

example (n : Nat) : ∃ m', 1 ≤ m' ∧ (LiveSettings.states 8 (restless (.ufunc n 3)) m').thread 1 = .idle := by
  refine C110_elementwise_ends 8 _ (restless_calm 8 _) ?_ 1 ?_ 1 n 3 rfl
  · intro w m _
    refine ⟨3 * Nat.pair m w + 1, by have := Nat.left_le_pair m w; omega, ?_⟩
    rw [restless, if_neg (by omega), if_neg (by omega), if_pos (by omega)]
    have : (3 * Nat.pair m w + 1) / 3 = Nat.pair m w := by omega
    rw [this]; simp
  · intro m
    exact ⟨3 * m + 3, by omega, by rw [restless, if_neg (by omega), if_pos (by omega)]⟩

example (n : Nat) : ∃ m', 1 ≤ m' ∧ (LiveSettings.states 8 (restless (.counter ((n + 16383) / 16384) false 0)) m').thread 1 = .idle := by
  refine C110_chunks_end 8 _ (restless_calm 8 _) ?_ 1 ?_ 1 n 0 rfl
  · intro w m _
    refine ⟨3 * Nat.pair m w + 1, by have := Nat.left_le_pair m w; omega, ?_⟩
    rw [restless, if_neg (by omega), if_neg (by omega), if_pos (by omega)]
    have : (3 * Nat.pair m w + 1) / 3 = Nat.pair m w := by omega
    rw [this]; simp
  · intro m
    exact ⟨3 * m + 3, by omega, by rw [restless, if_neg (by omega), if_pos (by omega)]⟩

end Pnumpy.Props
