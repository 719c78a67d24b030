import Verif.Proofs.Futex
/-
No worker that may take part sleeps while tasks are left, and all workers sleep in the end (`Verif.Model.Futex`).
-/
namespace Pnumpy.Futex
open Pnumpy.Work (upd)

/-- The only reasons for worker `c` to stop. -/
def Why (k : Cfg) (s : St) (c : Nat) : Prop := (k.g.skip0 = true ∧ s.item.zeroBy = some c) ∨ k.g.N ≤ s.item.next

theorem why_step {k : Cfg} {s : St} (h : Inv k s) (a : Act) {c : Nat} (hc : Why k s c) : Why k (step k s a) c := by
  simp only [Why, step_item]
  rcases hc with ⟨h1, h2⟩ | h2
  · exact Or.inl ⟨h1, Counter.zeroBy_stable h.item _ h2⟩
  · exact Or.inr (Nat.le_trans h2 (Counter.next_mono _ _ _))

theorem notified_of_le {T c : Nat} (h : c ≤ T) (h15 : c ≤ 15) : notified T (c / 4) = true := by
  unfold notified
  have : c / 4 = 0 ∨ c / 4 = 1 ∨ c / 4 = 2 ∨ c / 4 = 3 := by omega
  rcases this with e | e | e | e <;> simp [e] <;> omega

/-- Of worker `c`, which takes part. -/
structure Awake (k : Cfg) (c : Nat) (s : St) : Prop where
  waits : s.worker c = .wait true → Why k s c
  sleeps : s.phase = .work → s.worker c = .asleep → Why k s c

theorem filter_full {l : List Nat} {p : Nat → Bool} (h : (l.filter p).length = l.length) : ∀ c ∈ l, p c = true := by
  have := (List.filter_eq_self (l := l) (p := p)).mp (List.filter_sublist.eq_of_length h)
  exact this

theorem awake_step {k : Cfg} {s : St} {c : Nat} (hk : 3 ≤ k.g.wakeup ∨ k.workers ≤ k.g.wakeup) (h1 : 1 ≤ c) (hT : c ≤ k.g.wakeup)
    (hW : c ≤ k.workers) (h15 : c ≤ 15) (hi : Inv k s) (h : Awake k c s) (a : Act) : Awake k c (step k s a) := by
  have hg : ¬ (c = 0 ∨ k.workers < c) := by omega
  have hn := notified_of_le hT h15
  -- if neither the worker nor the phase moved
  have same : (step k s a).worker c = s.worker c → ((step k s a).phase = .work → s.phase = .work) → Awake k c (step k s a) := by
    intro e ep
    refine ⟨fun hx => why_step hi a (h.waits (e ▸ hx)), fun hp hx => why_step hi a (h.sleeps (ep hp) (e ▸ hx))⟩
  cases a with
  | caller S =>
    cases hp : s.phase with
    | publish => exact same (by simp [step, hp]) (by simp [step, hp])
    | work => exact same (by simp [step, hp]) (by simp [hp])
    | wake =>
      by_cases hl : Legal k s S
      · have hs : step k s (.caller S) = { s with phase := .work, worker := fun c => if S c then .top else s.worker c } := by
          simp only [step, hp, if_pos hl]
        rw [hs]
        refine ⟨?_, ?_⟩
        · intro hx
          simp only at hx
          split at hx
          · simp at hx
          · exact h.waits hx
        · intro _ hx
          exfalso
          simp only at hx
          split at hx
          · simp at hx
          rename_i hS
          by_cases h4 : 4 ≤ c
          · exact hS (hl.2.2 c h4 hW hx hn)
          · have hm : c ∈ sleepers0 k s := by
              simp only [sleepers0, List.mem_filter, Bool.and_eq_true, decide_eq_true_eq, beq_iff_eq]
              refine ⟨?_, hW, hx⟩
              have : c = 1 ∨ c = 2 ∨ c = 3 := by omega
              rcases this with rfl | rfl | rfl <;> simp
            have hlen : (sleepers0 k s).length ≤ min k.g.wakeup 3 := by
              rcases hk with hk | hk
              · have := List.length_filter_le (fun c => decide (c ≤ k.workers) && s.worker c == .asleep) [1, 2, 3]
                simp only [List.length_cons, List.length_nil] at this
                have : (sleepers0 k s).length ≤ 3 := this
                omega
              · have h3 : (sleepers0 k s).length ≤ 3 :=
                  List.length_filter_le (fun c => decide (c ≤ k.workers) && s.worker c == .asleep) [1, 2, 3]
                have : (sleepers0 k s).length ≤ k.workers := by
                  simp only [sleepers0]
                  by_cases w3 : 3 ≤ k.workers
                  · have h3' : ([1, 2, 3].filter fun c => decide (c ≤ k.workers) && s.worker c == .asleep).length ≤ 3 := h3
                    omega
                  · have n3 : (decide (3 ≤ k.workers)) = false := by simpa using w3
                    by_cases w2 : 2 ≤ k.workers
                    · have : k.workers = 2 := by omega
                      simp only [List.filter, n3, Bool.false_and]
                      split <;> split <;> simp <;> omega
                    · have n2 : (decide (2 ≤ k.workers)) = false := by simpa using w2
                      simp only [List.filter, n3, n2, Bool.false_and]
                      split <;> simp <;> omega
                omega
            have hfull := hl.2.1
            rw [Nat.min_eq_right hlen] at hfull
            exact hS (filter_full hfull c hm)
      · have e : step k s (.caller S) = s := by simp only [step, hp, if_neg hl]
        rw [e]; exact h
  | spurious d =>
    by_cases hd : d ≠ 0 ∧ s.worker d = .asleep
    · have hs : step k s (.spurious d) = { s with worker := upd s.worker d .top } := by simp only [step, if_pos hd]
      by_cases e : c = d
      · subst e; rw [hs]; exact ⟨by simp [upd], by simp [upd]⟩
      · exact same (by rw [hs]; simp [upd, e]) (by rw [hs]; exact id)
    · have e : step k s (.spurious d) = s := by simp only [step, if_neg hd]
      rw [e]; exact h
  | worker d =>
    have hph : (step k s (.worker d)).phase = s.phase := by
      simp only [step]; split
      · rfl
      · split <;> (try split) <;> (try split) <;> rfl
    by_cases e : c = d
    case neg =>
      refine same ?_ (by rw [hph]; exact id)
      simp only [step]; split
      · rfl
      · split <;> (try split) <;> (try split) <;> simp [upd, e]
    subst e
    cases hw : s.worker c with
    | asleep => exact same (by simp [step, hg, hw]) (by rw [hph]; exact id)
    | top =>
      by_cases hf : fresh k s c = true
      · have : (step k s (.worker c)).worker c = .work := by simp [step, hg, hw, hf, hT, upd]
        exact ⟨by rw [this]; simp, by rw [this]; simp⟩
      · have : (step k s (.worker c)).worker c = .wait false := by simp [step, hg, hw, hf, upd]
        exact ⟨by rw [this]; simp, by rw [this]; simp⟩
    | wait f =>
      by_cases hf : f = fresh k s c
      · have hs : (step k s (.worker c)).worker c = .asleep := by simp [step, hg, hw, ← hf, upd]
        refine ⟨by rw [hs]; simp, fun hp _ => ?_⟩
        rw [hph] at hp
        have : fresh k s c = true := by simp [fresh, hp, hn]
        rw [this] at hf
        subst hf
        exact why_step hi _ (h.waits hw)
      · have hs : (step k s (.worker c)).worker c = .top := by simp [step, hg, hw, hf, upd]
        exact ⟨by rw [hs]; simp, by rw [hs]; simp⟩
    | work =>
      cases hp : s.item.pc c with
      | ret did =>
        have hwhy : Why k s c := hi.item.retWhy c (Or.inr (Or.inr (Or.inr ⟨did, hp⟩)))
        exact ⟨fun _ => why_step hi _ hwhy, fun _ _ => why_step hi _ hwhy⟩
      | _ =>
        have : (step k s (.worker c)).worker c = .work := by simp [step, hg, hw, hp, upd]
        exact ⟨by rw [this]; simp, by rw [this]; simp⟩

theorem exec_snoc (k : Cfg) (w : Nat → Worker) (l : List Act) (a : Act) : exec k w (l ++ [a]) = step k (exec k w l) a := by
  simp [exec, List.foldl_append]

theorem inv_exec {k : Cfg} {w : Nat → Worker} (hw : Before w) (l : List Act) : Inv k (exec k w l) := by
  have : ∀ (l : List Act) (s : St), Inv k s → Inv k (l.foldl (step k) s) := by
    intro l
    induction l with
    | nil => exact fun _ h => h
    | cons a l ih => exact fun s h => ih _ (inv_step h a)
  exact this l _ (inv_start k w hw)

theorem awake_exec {k : Cfg} {w : Nat → Worker} (hw : Before w) {c : Nat} (hk : 3 ≤ k.g.wakeup ∨ k.workers ≤ k.g.wakeup)
    (h1 : 1 ≤ c) (hT : c ≤ k.g.wakeup) (hW : c ≤ k.workers) (h15 : c ≤ 15) (l : List Act) : Awake k c (exec k w l) := by
  have : ∀ (l : List Act) (s : St), Inv k s → Awake k c s → Awake k c (l.foldl (step k) s) := by
    intro l
    induction l with
    | nil => exact fun _ _ h => h
    | cons a l ih => exact fun s hi h => ih _ (inv_step hi a) (awake_step hk h1 hT hW h15 hi h a)
  refine this l _ (inv_start k w hw) ⟨?_, ?_⟩
  · intro h; rcases hw c with e | e | e <;> simp [start, e] at h
  · intro h; simp [start] at h

/-- Some task is neither executed nor in progress only while tickets are left. -/
theorem left_lt {g : Counter.Cfg} {s : Counter.St} (h : Counter.Inv g s) {b : Nat} (hb : b < g.n) (hl : b ∉ s.log)
    (hr : ∀ c, s.pc c ≠ .run b) : s.next < g.N := by
  refine Nat.lt_of_not_le fun hN => ?_
  obtain ⟨j, hj, ht⟩ := Counter.task_surj hb
  rcases h.cov b ⟨j, by omega, ht⟩ with x | ⟨c, _, x⟩
  · exact hl x
  · exact hr c x

/-! ### In the end everybody sleeps -/

/-- How far worker `c` is from sleeping once no ticket is left. -/
def dist (k : Cfg) (s : St) (c : Nat) : Nat :=
  match s.worker c with
  | .asleep => 0
  | .wait f => if f = fresh k s c then 1 else 6
  | .top => 5
  | .work =>
    match s.item.pc c with
    | .ret false => 2
    | .fetch false => 3
    | .idle => 4
    | .ret true => 6
    | .fetch true => 7
    | .complete _ => 8
    | .run _ => 9
    | _ => 10

/-- A worker inside the operation is not recorded as sleeping there. -/
def Inside (k : Cfg) (s : St) : Prop :=
  ∀ c, s.worker c = .work → s.item.pc c ≠ .asleep ∧ notified k.g.wakeup (c / 4) = true

theorem inside_step {k : Cfg} {s : St} (hi : Inv k s) (h : Inside k s) (a : Act) : Inside k (step k s a) := by
  intro c hc
  by_cases hold : s.worker c = .work
  · refine ⟨?_, (h c hold).2⟩
    have hp := (h c hold).1
    have ⟨h1, h2, h3⟩ := hi.inwork c hold
    have hg : ¬ (c = 0 ∨ k.workers < c) := by omega
    by_cases ha : a = .worker c
    · subst ha
      simp only [step, if_neg hg, hold] at hc ⊢
      cases hq : s.item.pc c with
      | ret d => cases d <;> simp [hq, upd] at hc
      | asleep => exact absurd hq hp
      | fetch d =>
        simp only [Counter.step, if_neg (show ¬ k.g.wakeup < c by omega), hq, upd, if_true]
        split <;> simp
      | wait => have := hi.item.waitMain c (Or.inl hq); omega
      | returned => have := hi.item.waitMain c (Or.inr hq); omega
      | _ => simp [Counter.step, show ¬ k.g.wakeup < c by omega, hq, upd]
    · rw [step_item]
      have hpc : (Counter.step k.g s.item (proj k s a)).pc c = s.item.pc c := by
        cases a with
        | caller S =>
          simp only [proj]
          split
          · exact Counter.step_other _ _ (by omega) _ (Or.inl rfl)
          · rw [wake0]
        | spurious d => simp only [proj, wake0]
        | worker d =>
          have hd : c ≠ d := fun e => ha (by rw [e])
          simp only [proj]
          split
          · rw [wake0]
          · split
            · split
              · exact Counter.step_other _ _ hd _ (Or.inr rfl)
              · rw [wake0]
            · exact Counter.step_other _ _ hd _ (Or.inl rfl)
            · rw [wake0]
      rw [hpc]; exact hp
  · -- it has just entered
    have : a = .worker c := by
      refine Classical.byContradiction fun ha => hold ?_
      by_cases hsl : s.worker c = .asleep
      · exfalso
        cases a with
        | caller S =>
          cases hp : s.phase <;> simp only [step, hp] at hc
          · exact hold hc
          · split at hc
            · by_cases hS : S c = true
              · simp [hS] at hc
              · simp [hS, hsl] at hc
            · exact hold hc
          · exact hold hc
        | spurious d =>
          simp only [step] at hc
          split at hc
          · by_cases e : c = d
            · subst e; simp [upd] at hc
            · simp [upd, e, hsl] at hc
          · exact hold hc
        | worker d =>
          have e : c ≠ d := fun e => ha (by rw [e])
          have : (step k s (.worker d)).worker c = s.worker c := by
            simp only [step]
            split
            · rfl
            · split <;> (try split) <;> (try split) <;> simp [upd, e]
          rw [this] at hc; exact hold hc
      · rw [← Futex.hold (k := k) hsl a ha]; exact hc
    subst this
    by_cases hg : c = 0 ∨ k.workers < c
    · simp only [step, if_pos hg] at hc; exact absurd hc hold
    cases hw : s.worker c with
    | asleep => simp [step, hg, hw] at hc
    | work => exact absurd hw hold
    | wait f =>
      simp only [step, if_neg hg, hw, upd, if_true] at hc
      split at hc <;> simp at hc
    | top =>
      by_cases hf : fresh k s c = true
      · by_cases hT : c ≤ k.g.wakeup
        · refine ⟨?_, by simp only [fresh, Bool.and_eq_true] at hf; exact hf.2⟩
          simp only [step, if_neg hg, hw, if_pos hf, if_pos hT, Counter.step]
          split
          · simp [upd]
          · rename_i hx
            intro hy
            exact hx ⟨hy, by omega⟩
        · simp [step, hg, hw, hf, hT, upd] at hc
      · simp [step, hg, hw, hf, upd] at hc

theorem inside_trace {k : Cfg} {w : Nat → Worker} (hw : Before w) (σ : Nat → Act) (t : Nat) : Inside k (trace k w σ t) := by
  induction t with
  | zero => intro c h; rcases hw c with e | e | e <;> simp [trace, start, e] at h
  | succ t ih => exact inside_step (inv_trace k w hw σ t) ih _

theorem fresh_work {k : Cfg} {s s' : St} (h : s.phase = .work) (h' : s'.phase = .work) (c : Nat) : fresh k s' c = fresh k s c := by
  simp [fresh, h, h']

/-- A step of its own brings a worker closer to sleeping. -/
theorem dist_self {k : Cfg} {s : St} {c : Nat} (hi : Inv k s) (hin : Inside k s) (h1 : 1 ≤ c) (hW : c ≤ k.workers)
    (hp : s.phase = .work) (hN : k.g.N ≤ s.item.next) (hd : s.worker c ≠ .asleep) :
    dist k (step k s (.worker c)) c < dist k s c := by
  have hg : ¬ (c = 0 ∨ k.workers < c) := by omega
  have hph : (step k s (.worker c)).phase = .work := phase_work hp _
  have hfr := fresh_work (k := k) hp hph c
  cases hw : s.worker c with
  | asleep => exact absurd hw hd
  | wait f =>
    by_cases hf : f = fresh k s c
    · have : (step k s (.worker c)).worker c = .asleep := by simp [step, hg, hw, ← hf, upd]
      simp only [dist, this, hw, if_pos hf]; omega
    · have : (step k s (.worker c)).worker c = .top := by simp [step, hg, hw, hf, upd]
      simp only [dist, this, hw, if_neg hf]; omega
  | top =>
    by_cases hf : fresh k s c = true
    · by_cases hT : c ≤ k.g.wakeup
      · have e1 : (step k s (.worker c)).worker c = .work := by simp [step, hg, hw, hf, hT, upd]
        have hin' := (inside_step hi hin (.worker c) c e1).1
        have ho := hi.away c (by omega) (by rw [hw]; simp)
        have e2 : (step k s (.worker c)).item.pc c = .idle ∨ (step k s (.worker c)).item.pc c = .fetch false := by
          have : (step k s (.worker c)).item = Counter.step k.g s.item (.wake c) := by
            simp [step, hg, hw, hf, hT]
          rw [this] at hin' ⊢
          simp only [Counter.step] at hin' ⊢
          split
          · left; simp [upd]
          · rename_i hx
            rw [if_neg hx] at hin'
            cases hq : s.item.pc c with
            | fetch d => right; rw [hq] at ho; simp [out] at ho; rw [ho]
            | idle => left; rfl
            | asleep => exact absurd hq hin'
            | _ => rw [hq] at ho; simp [out] at ho
        rcases e2 with e2 | e2 <;> simp only [dist, e1, e2, hw] <;> omega
      · have e1 : (step k s (.worker c)).worker c = .wait true := by simp [step, hg, hw, hf, hT, upd]
        simp only [dist, e1, hw, hfr, hf, if_true]; omega
    · have e1 : (step k s (.worker c)).worker c = .wait false := by simp [step, hg, hw, hf, upd]
      have hff : fresh k s c = false := by simpa using hf
      simp only [dist, e1, hw, hfr, hff, if_true]; omega
  | work =>
    have hT := (hi.inwork c hw).2.2
    have hn : ¬ k.g.wakeup < c := by omega
    have ei : (step k s (.worker c)).item = Counter.step k.g s.item (.go c) := by simp only [step, if_neg hg, hw]
    have fr : fresh k s c = true := by simp [fresh, hp, (hin c hw).2]
    cases hq : s.item.pc c with
    | ret did =>
      cases did with
      | true =>
        have e1 : (step k s (.worker c)).worker c = .top := by simp [step, hg, hw, hq, upd]
        simp only [dist, e1, hw, hq]; omega
      | false =>
        have e1 : (step k s (.worker c)).worker c = .wait true := by simp [step, hg, hw, hq, upd]
        simp only [dist, e1, hw, hq, hfr, fr, if_true]; omega
    | asleep => exact absurd hq (hin c hw).1
    | wait => have := hi.item.waitMain c (Or.inl hq); omega
    | returned => have := hi.item.waitMain c (Or.inr hq); omega
    | fetch did =>
      have e1 : (step k s (.worker c)).worker c = .work := by simp [step, hg, hw, hq, upd]
      have e2 : (step k s (.worker c)).item.pc c = .ret did := by
        rw [ei]; simp [Counter.step, hn, hq, upd, Counter.task_none_of_ge hN]
      cases did <;> simp only [dist, e1, e2, hw, hq] <;> omega
    | idle =>
      have e1 : (step k s (.worker c)).worker c = .work := by simp [step, hg, hw, hq, upd]
      have e2 : (step k s (.worker c)).item.pc c = .fetch false := by rw [ei]; simp [Counter.step, hn, hq, upd]
      simp only [dist, e1, e2, hw, hq]; omega
    | complete b =>
      have e1 : (step k s (.worker c)).worker c = .work := by simp [step, hg, hw, hq, upd]
      have e2 : (step k s (.worker c)).item.pc c = .fetch true := by rw [ei]; simp [Counter.step, hn, hq, upd]
      simp only [dist, e1, e2, hw, hq]; omega
    | run b =>
      have e1 : (step k s (.worker c)).worker c = .work := by simp [step, hg, hw, hq, upd]
      have e2 : (step k s (.worker c)).item.pc c = .complete b := by rw [ei]; simp [Counter.step, hn, hq, upd]
      simp only [dist, e1, e2, hw, hq]; omega

/-- Nobody else changes how far a worker is from sleeping. -/
theorem dist_other {k : Cfg} {s : St} {c : Nat} (h1 : 1 ≤ c) (hp : s.phase = .work) (a : Act) (ha : a ≠ .worker c)
    (hs : a ≠ .spurious c) : (step k s a).worker c = s.worker c ∧ dist k (step k s a) c = dist k s c := by
  have hfr := fresh_work (k := k) hp (phase_work (k := k) hp a) c
  have e1 : (step k s a).worker c = s.worker c := by
    cases a with
    | caller S => simp [step, hp]
    | spurious d =>
      have e : c ≠ d := fun e => hs (by rw [e])
      simp only [step]; split <;> simp [upd, e]
    | worker d =>
      have e : c ≠ d := fun e => ha (by rw [e])
      simp only [step]
      split
      · rfl
      · split <;> (try split) <;> (try split) <;> simp [upd, e]
  have e2 : (step k s a).item.pc c = s.item.pc c := by
    rw [step_item]
    cases a with
    | caller S =>
      rw [proj, if_pos hp]
      exact Counter.step_other _ _ (by omega) _ (Or.inl rfl)
    | spurious d => simp only [proj, wake0]
    | worker d =>
      have hd : c ≠ d := fun e => ha (by rw [e])
      simp only [proj]
      split
      · rw [wake0]
      · split
        · split
          · exact Counter.step_other _ _ hd _ (Or.inr rfl)
          · rw [wake0]
        · exact Counter.step_other _ _ hd _ (Or.inl rfl)
        · rw [wake0]
  exact ⟨e1, by simp only [dist, e1, e2, hfr]⟩

theorem sleeps_stays {k : Cfg} {w : Nat → Worker} {σ : Nat → Act} {c t : Nat} (h1 : 1 ≤ c) (hp : (trace k w σ t).phase = .work)
    (hs : ∀ u, t ≤ u → σ u ≠ .spurious c) (ha : (trace k w σ t).worker c = .asleep) :
    ∀ u, t ≤ u → (trace k w σ u).worker c = .asleep := by
  intro u hu
  obtain ⟨j, rfl⟩ : ∃ j, u = t + j := ⟨u - t, by omega⟩
  clear hu
  induction j with
  | zero => exact ha
  | succ j ih =>
    show (step k (trace k w σ (t + j)) (σ (t + j))).worker c = _
    by_cases hw : σ (t + j) = .worker c
    · rw [hw]; simp only [step]
      split
      · exact ih
      · rw [ih]; exact ih
    · rw [(dist_other h1 (phase_work_from hp j) _ hw (hs _ (by omega))).1]; exact ih

theorem worker_sleeps {k : Cfg} {w : Nat → Worker} (hw : Before w) {σ : Nat → Act} (hf : Fair k w σ) {c : Nat} (h1 : 1 ≤ c)
    (hW : c ≤ k.workers) {t0 : Nat} (hp : (trace k w σ t0).phase = .work) (hN : k.g.N ≤ (trace k w σ t0).item.next)
    (hs : ∀ u, t0 ≤ u → σ u ≠ .spurious c) : ∃ t, t0 ≤ t ∧ (trace k w σ t).worker c = .asleep := by
  have hN' : ∀ t, t0 ≤ t → k.g.N ≤ (trace k w σ t).item.next := by
    intro t ht
    have := Counter.trace_next_mono k.g (proj_run k w σ) t0 (t - t0)
    rw [show t0 + (t - t0) = t by omega] at this
    rw [trace_item] at hN ⊢
    exact Nat.le_trans hN this
  have hp' : ∀ t, t0 ≤ t → (trace k w σ t).phase = .work := by
    intro t ht
    have := phase_work_from hp (t - t0)
    rwa [show t0 + (t - t0) = t by omega] at this
  have key : ∀ n t, t0 ≤ t → dist k (trace k w σ t) c ≤ n → ∃ t', t0 ≤ t' ∧ (trace k w σ t').worker c = .asleep := by
    intro n
    induction n with
    | zero =>
      intro t ht hd
      refine ⟨t, ht, ?_⟩
      simp only [dist] at hd
      cases hx : (trace k w σ t).worker c with
      | asleep => rfl
      | top => simp [hx] at hd
      | wait f => simp only [hx] at hd; split at hd <;> omega
      | work => simp only [hx] at hd; split at hd <;> omega
    | succ n ih =>
      intro t ht hd
      by_cases hx : (trace k w σ t).worker c = .asleep
      · exact ⟨t, ht, hx⟩
      obtain ⟨t', a, b, d⟩ := first_time (P := fun u => σ u = .worker c) (hf.worker c h1 hW t)
      have hsame : ∀ j, t + j ≤ t' → (trace k w σ (t + j)).worker c = (trace k w σ t).worker c ∧
          dist k (trace k w σ (t + j)) c = dist k (trace k w σ t) c := by
        intro j
        induction j with
        | zero => exact fun _ => ⟨rfl, rfl⟩
        | succ j ihj =>
          intro hj
          have e := ihj (by omega)
          have f := dist_other (k := k) h1 (hp' (t + j) (by omega)) (σ (t + j)) (d (t + j) (by omega) (by omega)) (hs _ (by omega))
          exact ⟨f.1.trans e.1, f.2.trans e.2⟩
      have e := hsame (t' - t) (by omega)
      rw [show t + (t' - t) = t' by omega] at e
      refine ih (t' + 1) (by omega) ?_
      have lt := dist_self (inv_trace k w hw σ t') (inside_trace hw σ t') h1 hW (hp' t' (by omega)) (hN' t' (by omega))
        (by rw [e.1]; exact hx)
      have : dist k (trace k w σ (t' + 1)) c < dist k (trace k w σ t') c := by
        show dist k (step k (trace k w σ t') (σ t')) c < _
        rw [b]; exact lt
      omega
  exact key _ t0 (Nat.le_refl _) (Nat.le_refl _)

theorem all_sleep {k : Cfg} {w : Nat → Worker} (hw : Before w) {σ : Nat → Act} (hf : Fair k w σ)
    {t0 : Nat} (hp : (trace k w σ t0).phase = .work) (hN : k.g.N ≤ (trace k w σ t0).item.next)
    (hs : ∀ u c, t0 ≤ u → σ u ≠ .spurious c) :
    ∃ t, ∀ u, t ≤ u → ∀ c, 1 ≤ c → c ≤ k.workers → (trace k w σ u).worker c = .asleep := by
  have key : ∀ m, m ≤ k.workers → ∃ t, t0 ≤ t ∧ ∀ u, t ≤ u → ∀ c, 1 ≤ c → c ≤ m → (trace k w σ u).worker c = .asleep := by
    intro m
    induction m with
    | zero => exact fun _ => ⟨t0, Nat.le_refl _, fun u _ c a b => by omega⟩
    | succ m ih =>
      intro hm
      obtain ⟨t, ht, h⟩ := ih (by omega)
      obtain ⟨t', ht', h'⟩ := worker_sleeps hw hf (c := m + 1) (by omega) hm hp hN (fun u hu => hs u _ hu)
      have hp' : (trace k w σ t').phase = .work := by
        have := phase_work_from hp (t' - t0)
        rwa [show t0 + (t' - t0) = t' by omega] at this
      refine ⟨max t t', by omega, fun u hu c a b => ?_⟩
      by_cases e : c = m + 1
      · subst e; exact sleeps_stays (by omega) hp' (fun v hv => hs v _ (by omega)) h' u (by omega)
      · exact h u (by omega) c a (by omega)
  obtain ⟨t, _, h⟩ := key k.workers (Nat.le_refl _)
  exact ⟨t, h⟩

/-- In chunk mode the tickets are drawn however many workers take part. -/
theorem drained_chunk {k : Cfg} {w : Nat → Worker} {σ : Nat → Act} (hf : Fair k w σ) (hsk : k.g.skip0 = false) :
    ∃ t, k.g.N ≤ (trace k w σ t).item.next := by
  obtain ⟨t, h⟩ := Counter.drains (g := k.g) (go0_often hf) (fun h => by rw [hsk] at h; simp at h)
  exact ⟨t, by rw [trace_item]; exact h⟩

end Pnumpy.Futex
