import Verif.Props.Callers
import Verif.Proofs.WorkItemLive
/-
Property theorems C86: a worker thread inside an operation gets out of it by its own steps.
-/
namespace Pnumpy.Props
open Pnumpy.Callers
open Pnumpy.Work (upd)

/-- Worker `w` is neither at the caller's barrier nor past it. -/
def Item.pcOk (w : Nat) : Item → Prop
  | .counter _ st => st.pc w ≠ .wait ∧ st.pc w ≠ .returned
  | .ufunc _ st => st.pc w ≠ .wait ∧ st.pc w ≠ .returned

/-- ... nor asleep on the futex. -/
def Item.awake (w : Nat) : Item → Prop
  | .counter g st => Item.pcOk w (.counter g st) ∧ st.pc w ≠ .asleep
  | .ufunc it st => Item.pcOk w (.ufunc it st)

def urank (it : Work.Item) : Work.PC → Nat
  | .idle => it.threads + 6
  | .bump _ _ => it.threads + 8
  | .run _ => it.threads + 7
  | .complete _ => it.threads + 6
  | .own => it.threads + 5
  | .check => it.threads + 4
  | .scan i => 3 + (it.threads - i)
  | .ret => 2
  | _ => 0

/-- A bound on the number of steps worker `w` still takes inside. -/
def Item.left (w : Nat) : Item → Nat
  | .counter g st => Counter.M g w st
  | .ufunc it st => Work.U it st * (it.threads + 10) + urank it (st.pc w)

theorem counter_fresh (g : Counter.Cfg) (w : Nat) : (Counter.init).pc w = if w = 0 then .fetch false else .idle := rfl

theorem fresh_awake (j : Job) (w : Nat) (hw : w ≠ 0) : Item.awake w j.fresh := by
  cases j <;> simp [Job.fresh, Item.awake, Item.pcOk, Counter.init, Work.init, hw]

theorem go_other (i : Item) {c w : Nat} (h : w ≠ c) :
    (Item.pcOk w i → Item.pcOk w (i.go c)) ∧ (Item.awake w i → Item.awake w (i.go c) ∧ Item.left w (i.go c) ≤ Item.left w i) ∧ (i.go c).wakeup = i.wakeup := by
  cases i with
  | counter g st =>
    have e := Counter.step_other g st h (.go c) (Or.inl rfl)
    have hn := Counter.next_mono g st (.go c)
    refine ⟨fun x => ?_, fun x => ⟨?_, ?_⟩, rfl⟩
    · simpa [Item.go, Item.pcOk, e] using x
    · simpa [Item.go, Item.awake, Item.pcOk, e] using x
    · simp only [Item.go, Item.left, Counter.M, e]; omega
  | ufunc it st =>
    have e := Work.step_other it st h
    have hn := Work.U_step_le it st c
    refine ⟨fun x => ?_, fun x => ⟨?_, ?_⟩, rfl⟩
    · simpa [Item.go, Item.pcOk, e] using x
    · simpa [Item.go, Item.awake, Item.pcOk, e] using x
    · simp only [Item.go, Item.left, e]; exact Nat.add_le_add_right (Nat.mul_le_mul_right _ hn) _

theorem enter_other (i : Item) {c w : Nat} (h : w ≠ c) :
    (Item.pcOk w i → Item.pcOk w (i.enter c)) ∧ (Item.awake w i → Item.awake w (i.enter c) ∧ Item.left w (i.enter c) ≤ Item.left w i) ∧ (i.enter c).wakeup = i.wakeup := by
  cases i with
  | counter g st =>
    have e := Counter.step_other g st h (.wake c) (Or.inr rfl)
    have hn := Counter.next_mono g st (.wake c)
    refine ⟨fun x => ?_, fun x => ⟨?_, ?_⟩, rfl⟩
    · simpa [Item.enter, Item.pcOk, e] using x
    · simpa [Item.enter, Item.awake, Item.pcOk, e] using x
    · simp only [Item.enter, Item.left, Counter.M, e]; omega
  | ufunc it st => exact ⟨id, fun x => ⟨x, Nat.le_refl _⟩, rfl⟩

theorem enter_self (i : Item) {w : Nat} (hw : w ≠ 0) (h : Item.pcOk w i) : Item.awake w (i.enter w) := by
  cases i with
  | counter g st =>
    simp only [Item.enter, Counter.step]
    split
    · simp [Item.awake, Item.pcOk]
    · rename_i hc
      exact ⟨h, fun e => hc ⟨e, hw⟩⟩
  | ufunc it st => exact h

theorem go_self_ok (i : Item) {w : Nat} (hw : w ≠ 0) (h : Item.pcOk w i) : Item.pcOk w (i.go w) := by
  cases i with
  | counter g st =>
    simp only [Item.go, Item.pcOk] at h ⊢
    unfold Counter.step
    simp only
    split
    · exact h
    split <;> (try simp_all)
    · split <;> simp
    · split <;> simp
  | ufunc it st =>
    simp only [Item.go, Item.pcOk] at h ⊢
    unfold Work.step Work.tryClaim
    split
    · exact h
    split <;> (try simp_all)
    · split <;> simp
    · split <;> simp
    · split
      · simp
      · split
        · simp
        · simp; split <;> simp

/-- A step of `w` inside its item: nearer to the end. -/
theorem go_self (i : Item) {w : Nat} (hw : w ≠ 0) (hk : w ≤ i.wakeup) (h : Item.awake w i) (hl : i.leaving w = false) :
    Item.awake w (i.go w) ∧ Item.left w (i.go w) < Item.left w i := by
  cases i with
  | counter g st =>
    have hn : ¬ g.wakeup < w := by simp only [Item.wakeup] at hk; omega
    simp only [Item.awake, Item.pcOk, Item.leaving, Item.go, Item.left, Counter.M] at *
    cases hp : st.pc w with
    | idle => simp [Counter.step, hn, hp, Counter.mrank]
    | run b => simp [Counter.step, hn, hp, Counter.mrank]
    | complete b => simp [Counter.step, hn, hp, Counter.mrank]
    | fetch did =>
      cases ht : g.task st.next with
      | some b => have := (Counter.task_some_lt ht).2; simp [Counter.step, hn, hp, ht, Counter.mrank]; omega
      | none => simp [Counter.step, hn, hp, ht, Counter.mrank]; omega
    | ret d => rw [hp] at hl; cases hl
    | asleep => exact absurd hp h.2
    | wait => exact absurd hp h.1.1
    | returned => exact absurd hp h.1.2
  | ufunc it st =>
    have hn : ¬ it.wakeup < w := by simp only [Item.wakeup] at hk; omega
    simp only [Item.awake, Item.pcOk, Item.leaving, Item.go, Item.left] at *
    have claim : ∀ i f, i < it.threads → f ≠ .wait → f ≠ .returned → (urank it f < urank it (st.pc w)) →
        ((Work.tryClaim it st w i f).pc w ≠ .wait ∧ (Work.tryClaim it st w i f).pc w ≠ .returned) ∧
        Work.U it (Work.tryClaim it st w i f) * (it.threads + 10) + urank it ((Work.tryClaim it st w i f).pc w) <
          Work.U it st * (it.threads + 10) + urank it (st.pc w) := by
      intro i f hi h1 h2 hr
      by_cases hc : st.cur i < it.chanLast i
      · have hu := Work.U_claim_lt it st w i f hi hc
        have hm := Nat.mul_le_mul_right (it.threads + 10) (Nat.succ_le_of_lt hu)
        rw [Nat.succ_mul] at hm
        have : (Work.tryClaim it st w i f).pc w = .bump i (st.cur i) := by simp [Work.tryClaim, hc]
        rw [this]
        refine ⟨by simp, ?_⟩
        simp only [urank]
        omega
      · have hu := Work.U_claim_le it st w i f
        have hm := Nat.mul_le_mul_right (it.threads + 10) hu
        have : (Work.tryClaim it st w i f).pc w = f := by simp [Work.tryClaim, hc]
        rw [this]
        exact ⟨⟨h1, h2⟩, by omega⟩
    have ht : it.threads = it.wakeup + 1 := rfl
    cases hp : st.pc w with
    | idle => simp [Work.step, hn, hp, urank, Work.U]
    | own =>
      have := claim w .check (by omega) (by simp) (by simp) (by rw [hp]; simp [urank])
      rw [hp] at this
      simpa [Work.step, hn, hp] using this
    | bump ch pos => simp [Work.step, hn, hp, urank, Work.U]
    | check =>
      simp only [Work.step, if_neg hn, hp]
      split <;> simp [urank, Work.U] <;> omega
    | scan i =>
      by_cases hi : it.wakeup < i
      · simp [Work.step, hn, hp, hi, urank, Work.U]
        omega
      · by_cases he : i = w
        · subst he
          simp [Work.step, hn, hp, urank, Work.U]
          omega
        · have := claim i (.scan (i + 1)) (by omega) (by simp) (by simp) (by rw [hp]; simp only [urank]; omega)
          rw [hp] at this
          simpa [Work.step, hn, hp, hi, he] using this
    | run b => simp [Work.step, hn, hp, urank, Work.U]
    | complete b => simp [Work.step, hn, hp, urank, Work.U]
    | ret => rw [hp] at hl; simp at hl
    | wait => exact absurd hp h.1
    | returned => exact absurd hp h.2

theorem go_self_awake (i : Item) {w : Nat} (hw : w ≠ 0) (h : Item.awake w i) (hl : i.leaving w = false) :
    Item.awake w (i.go w) := by
  by_cases hk : w ≤ i.wakeup
  · exact (go_self i hw hk h hl).1
  · cases i with
    | counter g st =>
      have hn : g.wakeup < w := by simp only [Item.wakeup] at hk; omega
      simpa [Item.go, Counter.step, hn] using h
    | ufunc it st =>
      have hn : it.wakeup < w := by simp only [Item.wakeup] at hk; omega
      simpa [Item.go, Work.step, hn] using h

/-- What holds in every reachable state. -/
structure WInv (s : St) : Prop where
  ok : ∀ k w, w ≠ 0 → Item.pcOk w (s.slot k)
  inside : ∀ k w, w ≠ 0 → s.worker w = .item k → Item.awake w (s.slot k)

theorem pcOk_of_awake {w : Nat} {i : Item} (h : Item.awake w i) : Item.pcOk w i := by
  cases i with
  | counter g st => exact h.1
  | ufunc it st => exact h

/-- Slot `k` gets item `i'`, workers stay. -/
theorem winv_slot {s : St} (h : WInv s) {k : Nat} {i' : Item} (h1 : ∀ w, w ≠ 0 → Item.pcOk w i')
    (h2 : ∀ w, w ≠ 0 → s.worker w = .item k → Item.awake w i') {s' : St} (e : s'.slot = upd s.slot k i') (e' : s'.worker = s.worker) : WInv s' := by
  constructor
  · intro k' w hw
    rw [e]
    by_cases hk : k' = k
    · subst hk; rw [upd_same]; exact h1 w hw
    · rw [upd_ne _ _ hk]; exact h.ok k' w hw
  · intro k' w hw hi
    rw [e'] at hi
    rw [e]
    by_cases hk : k' = k
    · subst hk; rw [upd_same]; exact h2 w hw hi
    · rw [upd_ne _ _ hk]; exact h.inside k' w hw hi

theorem winv_same {s s' : St} (h : WInv s) (e : s'.slot = s.slot) (e' : s'.worker = s.worker) : WInv s' :=
  ⟨fun k w hw => by rw [e]; exact h.ok k w hw, fun k w hw hi => by rw [e' ] at hi; rw [e]; exact h.inside k w hw hi⟩

theorem winv_step {s : St} (h : WInv s) (a : Act) : WInv (step s a) := by
  cases a with
  | start t lock j =>
    simp only [step]
    split
    · exact winv_same h rfl rfl
    · exact h
  | giveUp t =>
    simp only [step]
    split
    · exact winv_same h rfl rfl
    · exact h
  | thread t =>
    simp only [step]
    split
    · exact h
    · split <;> exact winv_same h rfl rfl
    · exact winv_same h rfl rfl
    · exact winv_same h rfl rfl
    · rename_i i j _
      exact winv_slot h (fun w hw => pcOk_of_awake (fresh_awake j w hw)) (fun w hw _ => fresh_awake j w hw) rfl rfl
    · exact winv_same h rfl rfl
    · split
      · exact winv_same h rfl rfl
      · exact winv_slot h (fun w hw => (go_other _ hw).1 (h.ok _ w hw)) (fun w hw hi => ((go_other _ hw).2.1 (h.inside _ w hw hi)).1) rfl rfl
    · exact winv_same h rfl rfl
    · exact winv_same h rfl rfl
  | worker c =>
    simp only [step]
    split
    · exact h
    rename_i hc
    have wk : ∀ x : Worker, (∀ k, x ≠ .item k) → WInv { s with worker := upd s.worker c x } := by
      intro x hx
      refine ⟨h.ok, fun k w hw hi => ?_⟩
      simp only at hi ⊢
      by_cases e : w = c
      · subst e; rw [upd_same] at hi; exact absurd hi (hx k)
      · rw [upd_ne _ _ e] at hi; exact h.inside k w hw hi
    split
    · exact wk _ (by simp)
    · exact wk _ (by intro k; split <;> simp)
    · split
      · constructor
        · intro k' w hw
          simp only
          by_cases hk : k' = s.main % RING
          · subst hk
            rw [upd_same]
            by_cases e : w = c
            · subst e; exact pcOk_of_awake (enter_self _ hw (h.ok _ _ hw))
            · exact (enter_other _ e).1 (h.ok _ _ hw)
          · rw [upd_ne _ _ hk]; exact h.ok _ _ hw
        · intro k' w hw hi
          simp only at hi ⊢
          by_cases e : w = c
          · subst e
            rw [upd_same] at hi
            cases hi
            rw [upd_same]
            exact enter_self _ hw (h.ok _ _ hw)
          · rw [upd_ne _ _ e] at hi
            by_cases hk : k' = s.main % RING
            · subst hk; rw [upd_same]; exact ((enter_other _ e).2.1 (h.inside _ _ hw hi)).1
            · rw [upd_ne _ _ hk]; exact h.inside _ _ hw hi
      · exact wk _ (by simp)
    · rename_i k hk
      constructor
      · intro k' w hw
        simp only
        by_cases hk' : k' = k
        · subst hk'
          rw [upd_same]
          by_cases e : w = c
          · subst e; exact go_self_ok _ hw (h.ok _ _ hw)
          · exact (go_other _ e).1 (h.ok _ _ hw)
        · rw [upd_ne _ _ hk']; exact h.ok _ _ hw
      · intro k' w hw hi
        simp only at hi ⊢
        by_cases e : w = c
        · subst e
          rw [upd_same] at hi
          split at hi
          · cases hi
          · cases hi
            rw [upd_same]
            exact go_self_awake _ hw (h.inside _ _ hw hk) (Bool.eq_false_iff.2 ‹¬ _›)
        · rw [upd_ne _ _ e] at hi
          by_cases hk' : k' = k
          · subst hk'; rw [upd_same]; exact ((go_other _ e).2.1 (h.inside _ _ hw hi)).1
          · rw [upd_ne _ _ hk']; exact h.inside _ _ hw hi

theorem winv_init : WInv init :=
  ⟨fun k w hw => by simp [init, Item.pcOk, Counter.init, hw], fun k w hw h => by simp [init] at h⟩

theorem winv_exec (l : List Act) : WInv (exec l) := by
  induction l using List.reverseRecOn with
  | nil => exact winv_init
  | append_singleton l a ih => rw [exec_snoc]; exact winv_step ih a

theorem go_wakeup (i : Item) (c : Nat) : (i.go c).wakeup = i.wakeup := by cases i <;> rfl
theorem enter_wakeup (i : Item) (c : Nat) : (i.enter c).wakeup = i.wakeup := by cases i <;> rfl

/-- During the steps `l` from `s` on, no call fills ring entry `k` in (again). -/
def NoRefill (k : Nat) : St → List Act → Prop
  | _, [] => True
  | s, a :: l => (∀ t i j, a = .thread t → s.thread t = .fill i j → i % RING ≠ k) ∧ NoRefill k (step s a) l

/-- `a` is a step of worker `w`. -/
def isStepOf (w : Nat) : Act → Bool
  | .worker c => c == w
  | _ => false

/-- A step of somebody else that does not refill slot `k`. -/
theorem step_outside {s : St} {w k : Nat} (h : WInv s) (hw : w ≠ 0) (hi : s.worker w = .item k)
    (a : Act) (ha : isStepOf w a = false) (hr : ∀ t i j, a = .thread t → s.thread t = .fill i j → i % RING ≠ k) :
    (step s a).worker w = .item k ∧ ((step s a).slot k).wakeup = (s.slot k).wakeup ∧
      Item.left w ((step s a).slot k) ≤ Item.left w (s.slot k) := by
  have aw := h.inside k w hw hi
  cases a with
  | start t lock j =>
    simp only [step]
    split <;> exact ⟨hi, rfl, Nat.le_refl _⟩
  | giveUp t =>
    simp only [step]
    split <;> exact ⟨hi, rfl, Nat.le_refl _⟩
  | thread t =>
    simp only [step]
    split
    · exact ⟨hi, rfl, Nat.le_refl _⟩
    · split <;> exact ⟨hi, rfl, Nat.le_refl _⟩
    · exact ⟨hi, rfl, Nat.le_refl _⟩
    · exact ⟨hi, rfl, Nat.le_refl _⟩
    · rename_i i j e
      have := hr t i j rfl e
      refine ⟨hi, ?_⟩
      simp only
      rw [upd_ne _ _ (Ne.symm this)]
      exact ⟨rfl, Nat.le_refl _⟩
    · exact ⟨hi, rfl, Nat.le_refl _⟩
    · rename_i i j e
      split
      · exact ⟨hi, rfl, Nat.le_refl _⟩
      · refine ⟨hi, ?_⟩
        simp only
        by_cases hk : k = i % RING
        · subst hk
          rw [upd_same]
          exact ⟨go_wakeup _ _, ((go_other _ hw).2.1 aw).2⟩
        · rw [upd_ne _ _ hk]; exact ⟨rfl, Nat.le_refl _⟩
    · exact ⟨hi, rfl, Nat.le_refl _⟩
    · exact ⟨hi, rfl, Nat.le_refl _⟩
  | worker c =>
    have hc : w ≠ c := by rintro rfl; simp [isStepOf] at ha
    simp only [step]
    split
    · exact ⟨hi, rfl, Nat.le_refl _⟩
    split
    · exact ⟨by simp only [upd_ne _ _ hc]; exact hi, rfl, Nat.le_refl _⟩
    · exact ⟨by simp only [upd_ne _ _ hc]; exact hi, rfl, Nat.le_refl _⟩
    · split
      · refine ⟨by simp only [upd_ne _ _ hc]; exact hi, ?_⟩
        simp only
        by_cases hk : k = s.main % RING
        · subst hk
          rw [upd_same]
          exact ⟨enter_wakeup _ _, ((enter_other _ hc).2.1 aw).2⟩
        · rw [upd_ne _ _ hk]; exact ⟨rfl, Nat.le_refl _⟩
      · exact ⟨by simp only [upd_ne _ _ hc]; exact hi, rfl, Nat.le_refl _⟩
    · rename_i k' e
      refine ⟨by simp only [upd_ne _ _ hc]; exact hi, ?_⟩
      simp only
      by_cases hk : k = k'
      · subst hk
        rw [upd_same]
        exact ⟨go_wakeup _ _, ((go_other _ hc).2.1 aw).2⟩
      · rw [upd_ne _ _ hk]; exact ⟨rfl, Nat.le_refl _⟩

theorem returns_from (w k : Nat) (hw : w ≠ 0) (l : List Act) : ∀ s, WInv s → s.worker w = .item k → w ≤ (s.slot k).wakeup →
    NoRefill k s l → Item.left w (s.slot k) < l.countP (isStepOf w) →
    ∃ p, p <+: l ∧ (p.foldl step s).worker w = .top := by
  induction l with
  | nil => intro s _ _ _ _ h; simp at h
  | cons a l ih =>
    intro s h hi hk hr hc
    by_cases ha : isStepOf w a = true
    · obtain rfl : a = .worker w := by
        cases a with
        | worker c => simp only [isStepOf, beq_iff_eq] at ha; rw [ha]
        | start => cases ha
        | thread => cases ha
        | giveUp => cases ha
      by_cases hl : (s.slot k).leaving w = true
      · refine ⟨[.worker w], ⟨l, rfl⟩, ?_⟩
        simp [step, hw, hi, hl, upd]
      · have hl : (s.slot k).leaving w = false := by simpa using hl
        obtain ⟨h1, h2⟩ := go_self (s.slot k) hw hk (h.inside k w hw hi) hl
        have e1 : (step s (.worker w)).slot k = (s.slot k).go w := by simp [step, hw, hi, upd]
        have e2 : (step s (.worker w)).worker w = .item k := by simp [step, hw, hi, hl, upd]
        rw [List.countP_cons_of_pos ha] at hc
        obtain ⟨p, hp, e⟩ := ih (step s (.worker w)) (winv_step h _) e2 (by rw [e1, go_wakeup]; exact hk) hr.2 (by rw [e1]; omega)
        exact ⟨.worker w :: p, by simpa using hp, e⟩
    · have ha' : isStepOf w a = false := by simpa using ha
      obtain ⟨h1, h2, h3⟩ := step_outside h hw hi a ha' hr.1
      rw [List.countP_cons_of_neg ha] at hc
      obtain ⟨p, hp, e⟩ := ih (step s a) (winv_step h _) h1 (by rw [h2]; exact hk) hr.2 (by omega)
      exact ⟨a :: p, by simpa using hp, e⟩

/-- From a moment at which worker `w` is inside ring entry `k` and counts among the workers the entry is for. -/
theorem returns_inside (l : List Act) (w k : Nat) (hw : w ≠ 0) (hi : (exec l).worker w = .item k)
    (hk : w ≤ ((exec l).slot k).wakeup) :
    ∃ B, ∀ l2, NoRefill k (exec l) l2 → B ≤ l2.countP (isStepOf w) → ∃ p, p <+: l2 ∧ (exec (l ++ p)).worker w = .top := by
  refine ⟨Item.left w ((exec l).slot k) + 1, fun l2 hr hc => ?_⟩
  obtain ⟨p, hp, e⟩ := returns_from w k hw l2 _ (winv_exec l) hi hk hr (by omega)
  exact ⟨p, hp, by simpa [exec, List.foldl_append] using e⟩

/-- "Thread 0" of the pool does not exist: its state stays what it was. -/
theorem worker_zero (l : List Act) : (exec l).worker 0 = .top := by
  induction l using List.reverseRecOn with
  | nil => rfl
  | append_singleton l a ih =>
    rw [exec_snoc]
    cases a with
    | start t lock j => simp only [step]; split <;> exact ih
    | giveUp t => simp only [step]; split <;> exact ih
    | thread t =>
      simp only [step]
      split <;> first | exact ih | (split <;> exact ih)
    | worker c =>
      simp only [step]
      split
      · exact ih
      · rename_i hc
        have hc : (0 : Nat) ≠ c := fun e => hc e.symm
        split <;> first
          | (simp only [upd_ne _ _ hc]; exact ih)
          | (split <;> (simp only [upd_ne _ _ hc]; exact ih))

/-- The step by which a worker enters an operation puts it in an entry that wants it. -/
theorem entered (l : List Act) (w k : Nat) (hb : ∀ k', (exec l).worker w ≠ .item k')
    (hi : (exec (l ++ [.worker w])).worker w = .item k) :
    w ≠ 0 ∧ w ≤ ((exec (l ++ [.worker w])).slot k).wakeup := by
  have h0 : w ≠ 0 := by
    rintro rfl
    rw [worker_zero] at hi
    cases hi
  refine ⟨h0, ?_⟩
  rw [exec_snoc] at hi ⊢
  cases hs : (exec l).worker w with
  | top => simp [step, h0, hs, upd] at hi
  | cmp wi =>
    simp only [step, if_neg h0, hs, upd_same] at hi
    split at hi <;> cases hi
  | item k' => exact absurd hs (hb k')
  | look =>
    simp only [step, if_neg h0, hs] at hi ⊢
    split at hi
    · rename_i hk
      simp only [upd_same] at hi
      cases hi
      rw [if_pos hk]
      simp only [upd_same, enter_wakeup]
      exact hk
    · simp only [upd_same] at hi
      cases hi

/-- **C86.** However several threads call operations (history `l`), once a worker thread has entered an operation - its
last step took it from outside to inside ring entry `k` - there is a bound `B` such that, after it has been given `B`
further steps, whatever the callers, the other workers and further calls do in between and in whatever order, it has come
out to look for the next operation; provided that the ring entry it is in is not given to a new call meanwhile. -/
theorem C86_worker_returns (l : List Act) (w k : Nat) (hb : ∀ k', (exec l).worker w ≠ .item k')
    (hi : (exec (l ++ [.worker w])).worker w = .item k) :
    ∃ B, ∀ l2, NoRefill k (exec (l ++ [.worker w])) l2 → B ≤ l2.countP (isStepOf w) →
      ∃ p, p <+: l2 ∧ (exec (l ++ [.worker w] ++ p)).worker w = .top := by
  obtain ⟨h0, hk⟩ := entered l w k hb hi
  exact returns_inside _ w k h0 hi hk

theorem noRefill_workers (k w n : Nat) : ∀ s, NoRefill k s (List.replicate n (.worker w)) := by
  induction n with
  | zero => intro s; trivial
  | succ n ih => intro s; exact ⟨fun t i j e => Act.noConfusion e, ih _⟩

/-- Case: in `bothRun` worker 1 is inside thread 2's operation after 15 steps; thread 1 and thread 2 go on calling
into their own operations while it works, and it comes out. -/
example : ∃ p, p <+: bothRun.drop 15 ∧ (exec (bothRun.take 15 ++ p)).worker 1 = .top := by
  refine ⟨(bothRun.drop 15).take 16, List.take_prefix _ _, ?_⟩
  rfl

/-- Case for the hypotheses: the 15th step of `bothRun` takes worker 1 into ring entry 2; there is a bound from there, and
the schedule in which only worker 1 runs meets it. -/
example : ∃ B, ∃ p, p <+: List.replicate B (Act.worker 1) ∧ (exec (bothRun.take 14 ++ [.worker 1] ++ p)).worker 1 = .top := by
  have hl : (exec (bothRun.take 14)).worker 1 = .look := rfl
  obtain ⟨B, h⟩ := C86_worker_returns (bothRun.take 14) 1 2 (fun k e => by rw [hl] at e; cases e) rfl
  refine ⟨B, h _ (noRefill_workers 2 1 B _) (by rw [List.countP_replicate]; exact Nat.le_refl _)⟩

end Pnumpy.Props
