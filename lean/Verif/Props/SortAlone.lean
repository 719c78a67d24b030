import Verif.Props.CallersLive
import Verif.Props.WorkerReturns
/-
Property theorem C94 for sorts: a parallel sort comes to an end if no other thread calls an operation meanwhile.
-/
namespace Pnumpy.Props
open Pnumpy.Callers Pnumpy.Spec
open Pnumpy.Work (upd)

/-- No place of the ring is given to a new operation while a worker is still inside the old one. -/
def FreePlaces (σ : Nat → Act) : Prop :=
  ∀ n t i j, σ n = .thread t → (states σ n).thread t = .fill i j → ∀ w, (states σ n).worker w ≠ .item (i % RING)

/-- A worker inside an item is one of those the item is for. -/
theorem meant (σ : Nat → Act) (hf : FreePlaces σ) (n w k : Nat) (h : (states σ n).worker w = .item k) : w ≤ ((states σ n).slot k).wakeup := by
  induction n generalizing w k with
  | zero => cases h
  | succ n ih =>
    rw [states] at h ⊢
    cases ha : σ n with
    | start t lk j => rw [ha] at h; simp only [step] at h ⊢; split at h <;> exact ih w k h
    | giveUp t => rw [ha] at h; simp only [step] at h ⊢; split at h <;> exact ih w k h
    | thread t =>
      rw [ha] at h
      rw [worker_other _ _ _ (by simp)] at h
      have old := ih w k h
      cases hx : (states σ n).thread t with
      | fill i j =>
        simp only [step, hx]
        have : k ≠ i % RING := fun e => hf n t i j ha hx w (e ▸ h)
        rw [upd_ne _ _ this]; exact old
      | inCall i j =>
        simp only [step, hx]
        split
        · exact old
        · simp only
          by_cases e : k = i % RING
          · subst e; rw [upd_same, go_wakeup]; exact old
          · rw [upd_ne _ _ e]; exact old
      | want j => simp only [step, hx]; split <;> exact old
      | _ => simp only [step, hx]; exact old
    | worker c =>
      rw [ha] at h
      by_cases hc : c = 0
      · simp only [step, if_pos hc] at h ⊢; exact ih w k h
      · by_cases ew : w = c
        · subst ew
          cases hx : (states σ n).worker w with
          | top => simp only [step, if_neg hc, hx, upd_same] at h; cases h
          | cmp wi => simp only [step, if_neg hc, hx, upd_same] at h; split at h <;> cases h
          | look =>
            simp only [step, if_neg hc, hx] at h ⊢
            split at h
            · rename_i hk
              simp only [upd_same] at h
              cases h
              rw [if_pos hk]; simp only [upd_same, enter_wakeup]; exact hk
            · simp only [upd_same] at h; cases h
          | item k' =>
            have := ih w k' hx
            simp only [step, if_neg hc, hx, upd_same] at h ⊢
            split at h
            · cases h
            · cases h; rw [upd_same, go_wakeup]; exact this
        · rw [worker_other _ _ _ (fun e => ew (Act.worker.inj e).symm)] at h
          have old := ih w k h
          simp only [step, if_neg hc]
          split
          · exact old
          · exact old
          · split
            · simp only
              by_cases e : k = (states σ n).main % RING
              · rw [e, upd_same, enter_wakeup, ← e]; exact old
              · rw [upd_ne _ _ e]; exact old
            · exact old
          · rename_i k' _
            simp only
            by_cases e : k = k'
            · rw [e, upd_same, go_wakeup, ← e]; exact old
            · rw [upd_ne _ _ e]; exact old

theorem done_le (σ : Nat → Act) (hC : ∀ n, Calm (states σ n)) (n : Nat) : (states σ n).poolDone ≤ (states σ n).main := by
  induction n with
  | zero => exact Nat.le_refl _
  | succ n ih =>
    rw [states]
    cases ha : σ n with
    | start t lk j => simp only [step]; split <;> exact ih
    | giveUp t => simp only [step]; split <;> exact ih
    | worker c =>
      simp only [step]
      split
      · exact ih
      split
      · exact ih
      · exact ih
      · split <;> exact ih
      · exact ih
    | thread t =>
      cases hx : (states σ n).thread t with
      | want j => simp only [step, hx]; split <;> exact ih
      | take lk j => simp only [step, hx]; omega
      | inCall i j => simp only [step, hx]; split <;> exact ih
      | finish i j => simp only [step, hx]; exact ((inv_states σ hC n).range t i (by rw [hx]; rfl)).2
      | _ => simp only [step, hx]; exact ih

/-- How far thread `t` is with an operation that no other thread disturbs. -/
def Ahead (s : St) : Thread → Prop
  | .got _ i _ => s.main = i ∧ s.poolDone < i
  | .fill i _ => s.main = i ∧ s.poolDone < i
  | .publish i _ => s.main = i ∧ s.poolDone < i
  | .inCall i _ => s.main = i ∧ s.poolDone < i ∧ s.poolIdx = i
  | _ => True

theorem ahead (σ : Nat → Act) (hC : ∀ n, Calm (states σ n)) (t m : Nat) (h0 : Ahead (states σ m) ((states σ m).thread t))
    (hal : ∀ n, m ≤ n → (states σ n).thread t ≠ .idle → ∀ t', t' ≠ t → (states σ n).thread t' = .idle)
    (hne : ∀ n, m ≤ n → (states σ n).thread t ≠ .idle) (d : Nat) : Ahead (states σ (m + d)) ((states σ (m + d)).thread t) := by
  induction d with
  | zero => exact h0
  | succ d ih =>
    have same : ∀ s s' : St, s'.main = s.main → s'.poolDone = s.poolDone → s'.poolIdx = s.poolIdx → s'.thread t = s.thread t →
        Ahead s (s.thread t) → Ahead s' (s'.thread t) := by
      intro s s' a b c e h
      rw [e]
      cases hx : s.thread t <;> rw [hx] at h <;> simp only [Ahead, a, b, c] at h ⊢ <;> exact h
    rw [← Nat.add_assoc, states]
    cases ha : σ (m + d) with
    | start t' lk j =>
      by_cases e : t' = t
      · subst e
        have := hne (m + d) (by omega)
        simp only [step]
        exact ih
      · refine same _ _ ?_ ?_ ?_ ?_ ih
        all_goals simp only [step]; split
        all_goals first | rfl | simp [upd, Ne.symm e]
    | giveUp t' =>
      by_cases e : t' = t
      · subst e
        have := hne (m + d + 1) (by omega)
        rw [states, ha] at this
        simp only [step] at this ⊢
        split at this
        · simp [upd] at this
        · exact ih
      · refine same _ _ ?_ ?_ ?_ ?_ ih
        all_goals simp only [step]; split
        all_goals first | rfl | simp [upd, Ne.symm e]
    | worker c =>
      refine same _ _ ?_ ?_ ?_ (thread_worker _ _ _) ih
      all_goals
        simp only [step]
        split
        · rfl
        split
        · rfl
        · rfl
        · split <;> rfl
        · rfl
    | thread t' =>
      by_cases e : t' = t
      · subst e
        have hd := done_le σ hC (m + d)
        cases hx : (states σ (m + d)).thread t' with
        | idle => exact absurd hx (hne _ (by omega))
        | want j => simp only [step, hx]; split <;> simp [upd, Ahead]
        | take lk j => simp only [step, hx, upd_same]; exact ⟨rfl, Nat.lt_succ_of_le hd⟩
        | got lk i j => rw [hx] at ih; simp only [step, hx, upd_same, Ahead] at ih ⊢; exact ih
        | fill i j => rw [hx] at ih; simp only [step, hx, upd_same, Ahead] at ih ⊢; exact ih
        | publish i j => rw [hx] at ih; simp only [step, hx, upd_same, Ahead] at ih ⊢; exact ⟨ih.1, ih.2, trivial⟩
        | inCall i j =>
          rw [hx] at ih
          simp only [step, hx]
          split
          · simp [upd, Ahead]
          · simp only [hx]; exact ih
        | finish i j => simp only [step, hx, upd_same, Ahead]
        | serial j => simp only [step, hx, upd_same, Ahead]
      · have hi := hal (m + d) (by omega) (hne _ (by omega)) t' e
        simp only [step, hi]; exact ih

/-- The next step of a worker finds it where it is. -/
theorem next_step (σ : Nat → Act) (w n : Nat) (hf : ∃ n', n ≤ n' ∧ σ n' = .worker w) :
    ∃ n', n ≤ n' ∧ σ n' = .worker w ∧ (states σ n').worker w = (states σ n).worker w := by
  obtain ⟨n', hle, hσ⟩ := hf
  obtain ⟨d, rfl⟩ := Nat.exists_eq_add_of_le hle
  clear hle
  induction d generalizing n with
  | zero => exact ⟨n, Nat.le_refl _, hσ, rfl⟩
  | succ d ih =>
    by_cases e : σ n = .worker w
    · exact ⟨n, Nat.le_refl _, e, rfl⟩
    · obtain ⟨n', a, b, c⟩ := ih (n + 1) (by rw [Nat.add_right_comm, Nat.add_assoc]; exact hσ)
      exact ⟨n', by omega, b, by rw [c, states, worker_other _ _ _ e]⟩

/-- The next `d` steps of a run. -/
def nextSteps (σ : Nat → Act) (n d : Nat) : List Act := (List.range d).map fun x => σ (n + x)

theorem nextSteps_foldl (σ : Nat → Act) (n d : Nat) : (nextSteps σ n d).foldl step (states σ n) = states σ (n + d) := by
  induction d with
  | zero => rfl
  | succ d ih =>
    rw [nextSteps, List.range_succ, List.map_append, List.foldl_append]
    show step ((nextSteps σ n d).foldl step _) _ = _
    rw [ih]; rfl

theorem nextSteps_prefix (σ : Nat → Act) (n d : Nat) {p : List Act} (h : p <+: nextSteps σ n d) : p.foldl step (states σ n) = states σ (n + p.length) := by
  have hl : p.length ≤ d := by have := h.length_le; simpa [nextSteps] using this
  have : p = nextSteps σ n p.length := by
    rw [List.prefix_iff_eq_take.1 h, List.length_take]
    simp only [nextSteps, List.length_map, List.length_range, ← List.map_take, List.take_range]
  conv_lhs => rw [this]
  exact nextSteps_foldl σ n p.length

theorem nextSteps_count (σ : Nat → Act) (w n : Nat) (hw : ∀ n, ∃ n', n ≤ n' ∧ σ n' = .worker w) (B : Nat) :
    ∃ d, B ≤ (nextSteps σ n d).countP (isStepOf w) := by
  induction B with
  | zero => exact ⟨0, Nat.zero_le _⟩
  | succ B ih =>
    obtain ⟨d, hd⟩ := ih
    obtain ⟨n', hle, he⟩ := hw (n + d)
    obtain ⟨e, rfl⟩ := Nat.exists_eq_add_of_le hle
    refine ⟨d + e + 1, ?_⟩
    have : nextSteps σ n (d + e + 1) = nextSteps σ n d ++ ((List.range e).map fun x => σ (n + (d + x))) ++ [σ (n + d + e)] := by
      simp only [nextSteps, List.range_succ, List.map_append, List.range_add, List.map_map, List.map_singleton, Nat.add_assoc, Function.comp_def, List.append_assoc]
    rw [this, List.countP_append, List.countP_append, he]
    simp only [List.countP_cons, List.countP_nil, isStepOf, beq_self_eq_true, if_true]
    omega

theorem noRefill_next (σ : Nat → Act) (k n : Nat) (h : ∀ n', n ≤ n' → ∀ t i j, σ n' = .thread t → (states σ n').thread t = .fill i j → i % RING ≠ k) (d : Nat) :
    NoRefill k (states σ n) (nextSteps σ n d) := by
  induction d generalizing n with
  | zero => trivial
  | succ d ih =>
    have : nextSteps σ n (d + 1) = σ n :: nextSteps σ (n + 1) d := by
      simp only [nextSteps, List.range_succ_eq_map, List.map_cons, List.map_map, Nat.add_zero]
      congr 1
      apply List.map_congr_left
      intro x _
      simp only [Function.comp]
      congr 1; omega
    rw [this]
    exact ⟨fun t i j e => h n (Nat.le_refl _) t i j e, ih (n + 1) fun n' hn => h n' (by omega)⟩

/-- While thread `t` is in its operation and nobody else is, worker 1 steps inside it again and again. -/
theorem visits (σ : Nat → Act) (hf : FreePlaces σ) (hw : ∀ n, ∃ n', n ≤ n' ∧ σ n' = .worker 1) (t i n0 : Nat) (j : Job)
    (stay : ∀ m, (states σ (n0 + m)).thread t = .inCall i j) (hah : ∀ m, Ahead (states σ (n0 + m)) ((states σ (n0 + m)).thread t))
    (hal : ∀ m t', t' ≠ t → (states σ (n0 + m)).thread t' = .idle) (hwk : ∀ m, 1 ≤ ((states σ (n0 + m)).slot (i % RING)).wakeup) (m : Nat) :
    ∃ m', m ≤ m' ∧ σ (n0 + m') = .worker 1 ∧ (states σ (n0 + m')).worker 1 = .item (i % RING) := by
  have nx : ∀ m, ∃ m', m ≤ m' ∧ σ (n0 + m') = .worker 1 ∧ (states σ (n0 + m')).worker 1 = (states σ (n0 + m)).worker 1 := by
    intro m
    obtain ⟨n', h1, h2, h3⟩ := next_step σ 1 (n0 + m) (hw _)
    obtain ⟨d, rfl⟩ := Nat.exists_eq_add_of_le h1
    exact ⟨m + d, by omega, by rw [← Nat.add_assoc]; exact h2, by rw [← Nat.add_assoc]; exact h3⟩
  have facts : ∀ m, (states σ (n0 + m)).main = i ∧ (states σ (n0 + m)).poolDone < i ∧ (states σ (n0 + m)).poolIdx = i := by
    intro m; have := hah m; rw [stay m] at this; exact this
  have inItem : ∀ m, (states σ (n0 + m)).worker 1 = .item (i % RING) → ∃ m', m ≤ m' ∧ σ (n0 + m') = .worker 1 ∧ (states σ (n0 + m')).worker 1 = .item (i % RING) := by
    intro m h
    obtain ⟨m', a, b, c⟩ := nx m
    exact ⟨m', a, b, by rw [c, h]⟩
  have look : ∀ m, (states σ (n0 + m)).worker 1 = .look → ∃ m', m ≤ m' ∧ σ (n0 + m') = .worker 1 ∧ (states σ (n0 + m')).worker 1 = .item (i % RING) := by
    intro m h
    obtain ⟨m', a, b, c⟩ := nx m
    rw [h] at c
    obtain ⟨m2, a2, r⟩ := inItem (m' + 1) (by
      rw [← Nat.add_assoc, states, b]
      have hk : 1 ≤ ((states σ (n0 + m')).slot ((states σ (n0 + m')).main % RING)).wakeup := by rw [(facts m').1]; exact hwk m'
      simp only [step, c, if_neg (show (1 : Nat) ≠ 0 by omega)]
      rw [if_pos hk]
      simp only [upd_same, (facts m').1])
    exact ⟨m2, by omega, r⟩
  have cmp : ∀ m, (states σ (n0 + m)).worker 1 = .cmp i → ∃ m', m ≤ m' ∧ σ (n0 + m') = .worker 1 ∧ (states σ (n0 + m')).worker 1 = .item (i % RING) := by
    intro m h
    obtain ⟨m', a, b, c⟩ := nx m
    rw [h] at c
    obtain ⟨m2, a2, r⟩ := look (m' + 1) (by
      rw [← Nat.add_assoc, states, b]
      simp only [step, c, if_neg (show (1 : Nat) ≠ 0 by omega), upd_same, if_pos (show i > (states σ (n0 + m')).poolDone from (facts m').2.1)])
    exact ⟨m2, by omega, r⟩
  have top : ∀ m, (states σ (n0 + m)).worker 1 = .top → ∃ m', m ≤ m' ∧ σ (n0 + m') = .worker 1 ∧ (states σ (n0 + m')).worker 1 = .item (i % RING) := by
    intro m h
    obtain ⟨m', a, b, c⟩ := nx m
    rw [h] at c
    obtain ⟨m2, a2, r⟩ := cmp (m' + 1) (by
      rw [← Nat.add_assoc, states, b]
      simp only [step, c, if_neg (show (1 : Nat) ≠ 0 by omega), upd_same, (facts m').2.2])
    exact ⟨m2, by omega, r⟩
  cases hx : (states σ (n0 + m)).worker 1 with
  | top => exact top m hx
  | look => exact look m hx
  | cmp wi =>
    obtain ⟨m', a, b, c⟩ := nx m
    rw [hx] at c
    by_cases hd : wi > (states σ (n0 + m')).poolDone
    · obtain ⟨m2, a2, r⟩ := look (m' + 1) (by
        rw [← Nat.add_assoc, states, b]
        simp only [step, c, if_neg (show (1 : Nat) ≠ 0 by omega), upd_same, if_pos hd])
      exact ⟨m2, by omega, r⟩
    · obtain ⟨m2, a2, r⟩ := top (m' + 1) (by
        rw [← Nat.add_assoc, states, b]
        simp only [step, c, if_neg (show (1 : Nat) ≠ 0 by omega), upd_same, if_neg hd])
      exact ⟨m2, by omega, r⟩
  | item k =>
    by_cases ek : k = i % RING
    · exact inItem m (by rw [hx, ek])
    · have hk := meant σ hf (n0 + m) 1 k hx
      obtain ⟨d, hd⟩ := nextSteps_count σ 1 (n0 + m) hw (Item.left 1 ((states σ (n0 + m)).slot k) + 1)
      have hwi : WInv (states σ (n0 + m)) := by rw [states_exec]; exact winv_exec _
      obtain ⟨p, hp, e⟩ := returns_from 1 k (by omega) (nextSteps σ (n0 + m) d) _ hwi hx hk (noRefill_next σ k _ (by
        intro n' hn' t' i' j' _ hfill
        obtain ⟨d', rfl⟩ := Nat.exists_eq_add_of_le hn'
        by_cases et : t' = t
        · subst et
          rw [Nat.add_assoc, stay] at hfill; cases hfill
        · rw [Nat.add_assoc, hal _ _ et] at hfill; cases hfill) d) (by omega)
      rw [nextSteps_prefix σ _ _ hp, Nat.add_assoc] at e
      obtain ⟨m2, a2, r⟩ := top _ e
      exact ⟨m2, by omega, r⟩

/-- A parallel sort of an array cut into `n` parts, in which `wakeup` workers may take part. -/
def sortCfg (n wakeup : Nat) : Counter.Cfg := { n, skip0 := true, wakeup }

theorem sort_returns (σ : Nat → Act) (hC : ∀ n, Calm (states σ n)) (hw : ∀ w n, w ≠ 0 → ∃ n', n ≤ n' ∧ σ n' = .worker w) (t : Nat)
    (hth : ∀ n, ∃ n', n ≤ n' ∧ σ n' = .thread t) (i n0 n wakeup : Nat) (hwu : 1 ≤ wakeup) (hfr : FreePlaces σ)
    (hah : ∀ m, Ahead (states σ (n0 + m)) ((states σ (n0 + m)).thread t)) (hal : ∀ m t', t' ≠ t → (states σ (n0 + m)).thread t' = .idle)
    (h : (states σ n0).thread t = .inCall i (.counter (sortCfg n wakeup))) :
    ∃ m, (states σ (n0 + m)).thread t = .inCall i (.counter (sortCfg n wakeup)) ∧ ((states σ (n0 + m)).slot (i % RING)).returned := by
  generalize hit : sortCfg n wakeup = g at h ⊢
  by_contra hno
  have hnr : ∀ m, (states σ (n0 + m)).thread t = .inCall i (.counter g) → ¬ ((states σ (n0 + m)).slot (i % RING)).returned :=
    fun m h1 h2 => hno ⟨m, h1, h2⟩
  have stay := stays_inCall σ t i _ n0 h hnr
  have hslot : ∀ m, ∃ st, (states σ (n0 + m)).slot (i % RING) = .counter g st := by
    intro m
    have hj := (inv_states σ hC (n0 + m)).own trivial t i _ (by rw [stay m]; rfl) (hC _ t i (by rw [stay m]; rfl))
    cases hs : (states σ (n0 + m)).slot (i % RING) with
    | ufunc g st => rw [hs] at hj; simp [Item.job] at hj
    | counter it' st => rw [hs] at hj; simp only [Item.job, Job.counter.injEq] at hj; rw [hj]; exact ⟨st, rfl⟩
  choose y hy using hslot
  obtain ⟨l, hl⟩ : ∃ l, y 0 = Counter.exec g l := by
    have := (inv_states σ hC (n0 + 0)).reach (i % RING)
    rw [hy 0] at this; exact this
  have hstep : ∀ m, ∃ c, y (m + 1) = Counter.step g (y m) c ∧ ((σ (n0 + m) = .thread t → c = .go 0) ∧
      ∀ w, w ≠ 0 → σ (n0 + m) = .worker w → (states σ (n0 + m)).worker w = .item (i % RING) → c = .go w) := by
    intro m
    have e : (states σ (n0 + (m + 1))).slot (i % RING) = (step (states σ (n0 + m)) (σ (n0 + m))).slot (i % RING) := rfl
    have idle : ∀ s, Counter.step g s (.go (g.wakeup + 1)) = s := fun s => by simp only [Counter.step]; rw [if_pos (by omega)]
    rcases slot_step (hC _) (inv_states σ hC (n0 + m)) t i _ (stay m) (σ (n0 + m)) with ⟨h1, h2, h3⟩ | ⟨h1, h2⟩ | ⟨w, h0, h1, h2⟩ | ⟨w, h0, h1, h2, h3⟩
    · rw [h1, hy, hy] at e
      refine ⟨.go (g.wakeup + 1), by rw [idle]; injection e, fun he => absurd (h2 he) (hnr m (stay m)), fun w h0 he hi => absurd hi (h3 w h0 he)⟩
    · rw [h1, hy, hy] at e
      refine ⟨.go 0, by injection e, fun _ => rfl, fun w _ he => by rw [h2] at he; cases he⟩
    · rw [h1, hy, hy] at e
      refine ⟨.go w, by injection e, (fun he => by rw [h2] at he; cases he), fun w' _ he _ => by rw [h2] at he; rw [Act.worker.inj he]⟩
    · rw [h1, hy, hy] at e
      refine ⟨.wake w, by injection e, (fun he => by rw [h2] at he; cases he), fun w' _ he hi => ?_⟩
      rw [h2] at he; cases he; exact absurd hi h3
  obtain ⟨τ, hτ, hP⟩ := replay (Counter.step g) Counter.init (Counter.trace g) (fun _ => rfl) (fun _ _ => rfl) l y hl _ hstep
  have hcaller : ∀ T, ∃ T', T ≤ T' ∧ τ T' = .go 0 := by
    intro T
    obtain ⟨n', hle, he⟩ := hth (n0 + T)
    obtain ⟨m, rfl⟩ := Nat.exists_eq_add_of_le (Nat.le_trans (Nat.le_add_right n0 T) hle)
    exact ⟨l.length + m, by omega, (hP m).1 he⟩
  have late : ∀ m c, c ≠ 0 → ((y m).pc c).busy = true → ∃ T', l.length + m ≤ T' ∧ τ T' = .go c := by
    intro m c hc hb
    have hin := busyIn_states σ (n0 + m) (i % RING) c hc (by rw [hy]; exact hb)
    obtain ⟨n', hle, he, hi⟩ := next_worker σ c _ _ hin (hw c _ hc)
    obtain ⟨m', rfl⟩ := Nat.exists_eq_add_of_le (Nat.le_trans (Nat.le_add_right n0 m) hle)
    exact ⟨l.length + m', by omega, (hP m').2 c hc he hi⟩
  -- a step other than `go c` leaves a busy thread where it is
  have other : ∀ s a c, ((s : Counter.St).pc c).busy = true → a ≠ .go c → (Counter.step g s a).pc c = s.pc c := by
    intro s a c hb ha
    cases a with
    | go d => exact Counter.step_other g s (fun e => ha (by rw [e])) (.go d) (Or.inl rfl)
    | wake d =>
      by_cases e : c = d
      · subst e
        simp only [Counter.step]
        split
        · rename_i hp; rw [hp.1] at hb; cases hb
        · rfl
      · exact Counter.step_other g s e (.wake d) (Or.inr rfl)
  obtain ⟨T, hT⟩ := C04_index_progress_partial n wakeup τ 1 (Nat.le_refl 1) hwu ⟨hcaller, by
    have hit' : ({ n, skip0 := true, wakeup } : Counter.Cfg) = g := hit
    rw [hit']
    intro T c hb
    by_cases hc : c = 0
    · rw [hc]; exact hcaller T
    have keep : ∀ d, (∃ T', T ≤ T' ∧ τ T' = .go c) ∨ (Counter.trace g τ (T + d)).pc c = (Counter.trace g τ T).pc c := by
      intro d
      induction d with
      | zero => exact Or.inr rfl
      | succ d ih =>
        rcases ih with h | h
        · exact Or.inl h
        · by_cases e : τ (T + d) = .go c
          · exact Or.inl ⟨T + d, by omega, e⟩
          · right; rw [← Nat.add_assoc, Counter.trace, other _ _ _ (by rw [h]; exact hb) e]; exact h
    rcases keep (l.length + T - T) with h | h
    · exact h
    · rw [show T + (l.length + T - T) = l.length + T by omega, hτ] at h
      obtain ⟨T', h1, h2⟩ := late T c hc (by rw [h]; exact hb)
      exact ⟨T', by omega, h2⟩⟩ (by
    intro T
    obtain ⟨m', h1, h2, h3⟩ := visits σ hfr (fun n => hw 1 n (by omega)) t i n0 _ stay hah hal
      (fun m => by rw [hy m]; rw [← hit]; exact hwu) T
    exact ⟨l.length + m', by omega, (hP m').2 1 (by omega) h2 h3⟩)
  have hit' : ({ n, skip0 := true, wakeup } : Counter.Cfg) = g := hit
  rw [hit'] at hT
  have stable : ∀ d, (Counter.trace g τ (T + d)).pc 0 = .returned := by
    intro d
    induction d with
    | zero => exact hT
    | succ d ih =>
      rw [← Nat.add_assoc, Counter.trace]
      cases ha : τ (T + d) with
      | go c =>
        by_cases e : c = 0
        · rw [e]; simp only [Counter.step, ih, Nat.not_lt_zero, if_false]
        · rw [Counter.step_other g _ (Ne.symm e) (.go c) (Or.inl rfl)]; exact ih
      | wake c =>
        simp only [Counter.step]
        split
        · rename_i hp; simp only [upd, if_neg (Ne.symm hp.2)]; exact ih
        · exact ih
  have := stable l.length
  rw [Nat.add_comm, hτ] at this
  exact hnr T (stay T) (by rw [hy]; exact this)

/-- **C94**, sorts: from the moment `m` at which thread `t` starts a parallel sort for which at least one worker is to be woken, if no other thread is in an operation
as long as thread `t` is, if all workers and thread `t` keep running (in any order) and no place of the ring is taken while a worker is still inside its old operation, then
the sort comes to an end. Before and after, the threads may do what they like. -/
theorem C94_sort_ends_partial (σ : Nat → Act) (hcalm : ∀ m, Calm (states σ m)) (hfree : FreePlaces σ)
    (hworkers : ∀ w m, w ≠ 0 → ∃ m', m ≤ m' ∧ σ m' = .worker w) (t : Nat) (hthread : ∀ m, ∃ m', m ≤ m' ∧ σ m' = .thread t) (m n wakeup : Nat)
    (hwake : 1 ≤ wakeup) (h : (states σ m).thread t = .want (.counter (sortCfg n wakeup)))
    (halone : ∀ m', m ≤ m' → (states σ m').thread t ≠ .idle → ∀ t', t' ≠ t → (states σ m').thread t' = .idle) :
    ∃ m', m ≤ m' ∧ (states σ m').thread t = .idle := by
  by_contra hno
  have hne : ∀ n, m ≤ n → (states σ n).thread t ≠ .idle := fun n hn e => hno ⟨n, hn, e⟩
  have hah := ahead σ hcalm t m (by rw [h]; trivial) halone hne
  -- the run from `m` on is enough
  have hb : ∀ i n0, m ≤ n0 → (states σ n0).thread t = .inCall i (.counter (sortCfg n wakeup)) →
      ∃ d, (states σ (n0 + d)).thread t = .inCall i (.counter (sortCfg n wakeup)) ∧ ((states σ (n0 + d)).slot (i % RING)).returned := by
    intro i n0 hn hi
    refine sort_returns σ hcalm hworkers t hthread i n0 n wakeup hwake hfree (fun d => ?_) (fun d t' ht' => ?_) hi
    · obtain ⟨e, rfl⟩ := Nat.exists_eq_add_of_le hn
      rw [Nat.add_assoc]; exact hah _
    · exact halone _ (by omega) (hne _ (by omega)) t' ht'
  have fin := ends_of_barrier_from σ hcalm t hthread (.counter (sortCfg n wakeup)) m hb _ m (Nat.le_refl _) rfl
    (fun j' e => by rw [h] at e; exact (Option.some.inj e).symm)
  obtain ⟨n', h1, h2⟩ := fin
  exact hne n' h1 h2

/-! A case: `steadyRun`. -/

private def early : Thread → Bool
  | .want _ => true
  | .take _ _ => true
  | .got _ _ _ => true
  | .fill _ _ => true
  | .publish _ _ => true
  | _ => false

private theorem steady_idle (j : Job) (n t : Nat) (ht : t ≠ 1) : (states (steadyRun j) n).thread t = .idle := by
  induction n with
  | zero => rfl
  | succ n ih =>
    rw [states, steadyRun]
    split
    · simp only [step]; split <;> simp [upd, ht, ih]
    split
    · rw [thread_keep _ _ _ ht]; exact ih
    · rw [thread_worker]; exact ih

private theorem steady_early (j : Job) (n : Nat) (h0 : 0 < n) (he : early ((states (steadyRun j) n).thread 1) = true) :
    (states (steadyRun j) n).poolIdx = 0 ∧ ∀ w, (states (steadyRun j) n).worker w = .top ∨ (states (steadyRun j) n).worker w = .cmp 0 := by
  induction n with
  | zero => omega
  | succ n ih =>
    by_cases hn : n = 0
    · subst hn; exact ⟨rfl, fun _ => Or.inl rfl⟩
    rw [states, steadyRun, if_neg hn] at he ⊢
    split at he
    · rename_i hm
      rw [if_pos hm]
      have he' : early ((states (steadyRun j) n).thread 1) = true := by
        cases hx : (states (steadyRun j) n).thread 1 with
        | idle => simp only [step, hx] at he; exact he
        | inCall i j' =>
          simp only [step, hx] at he
          split at he
          · simp [upd, early] at he
          · simp [hx, early] at he
        | finish i j' => simp [step, hx, upd, early] at he
        | serial j' => simp [step, hx, upd, early] at he
        | _ => rfl
      obtain ⟨i1, i2⟩ := ih (by omega) he'
      refine ⟨?_, fun w => by rw [worker_other _ _ _ (by simp)]; exact i2 w⟩
      cases hx : (states (steadyRun j) n).thread 1 with
      | want j' => simp only [step, hx]; split <;> exact i1
      | publish i j' => simp [step, hx, upd, early] at he
      | inCall i j' => rw [hx] at he'; cases he'
      | finish i j' => rw [hx] at he'; cases he'
      | serial j' => rw [hx] at he'; cases he'
      | _ => simp only [step, hx]; exact i1
    · rename_i hm
      rw [if_neg hm]
      rw [thread_worker] at he
      obtain ⟨i1, i2⟩ := ih (by omega) he
      generalize n / 2 - Nat.sqrt (n / 2) * Nat.sqrt (n / 2) = c
      by_cases hc : c = 0
      · simp only [step, if_pos hc]; exact ⟨i1, i2⟩
      simp only [step, if_neg hc]
      rcases i2 c with h | h
      · simp only [h]
        refine ⟨i1, fun w => ?_⟩
        by_cases e : w = c
        · subst e; right; simp only [upd_same, i1]
        · simp only [upd_ne _ _ e]; exact i2 w
      · simp only [h]
        refine ⟨i1, fun w => ?_⟩
        by_cases e : w = c
        · subst e; left; simp only [upd_same]; rw [if_neg (by omega)]
        · simp only [upd_ne _ _ e]; exact i2 w

private theorem steady_free (j : Job) : FreePlaces (steadyRun j) := by
  intro n t i j' _ hf w
  by_cases ht : t = 1
  · subst ht
    have h0 : 0 < n := by
      rcases Nat.eq_zero_or_pos n with rfl | h
      · cases hf
      · exact h
    rcases (steady_early j n h0 (by rw [hf]; rfl)).2 w with h | h <;> rw [h] <;> simp
  · rw [steady_idle j n t ht] at hf; cases hf

/-- Case: one thread sorts (eight parts, up to seven workers) and runs alternately with all the workers in turn. -/
example : ∃ m', 1 ≤ m' ∧ (states (steadyRun (.counter (sortCfg 8 7))) m').thread 1 = .idle :=
  C94_sort_ends_partial _ (steadyRun_calm _) (steady_free _) (fun w m _ => steadyRun_workers _ w m) 1 (steadyRun_thread _) 1 8 7 (by decide) rfl
    fun m' _ _ t' ht' => steady_idle _ m' t' ht'

end Pnumpy.Props
