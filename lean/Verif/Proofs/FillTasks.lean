import Verif.Spec.FillTasks
import Verif.Proofs.Callers
import Verif.Proofs.CallersLive
import Mathlib.Tactic.Convert
/-
Simulation of `Verif.Model.FillTasks` by `Verif.Model.Callers` (items written in one step) for undisturbed histories.
-/
namespace Pnumpy.FillTasks
open Pnumpy.Work (upd)
open Pnumpy.Callers (upd_same upd_ne)

/-- The sort as `Verif.Model.WorkCounter` has it. -/
def Job.cfg (j : Job) : Counter.Cfg := { n := j.n, skip0 := true, wakeup := j.wakeup }

/-- The slot holds the item of sort `i`, and its counters are those of `st`. -/
structure Live (sl : Slot) (st : Counter.St) (i : Nat) (j : Job) : Prop where
  arg : sl.arg = i
  wakeup : sl.wakeup = j.wakeup
  blockLast : sl.blockLast = j.n + 1
  completed : sl.completed = st.completed
  next : sl.next = st.next

/-- A thread inside the item at a place. -/
def At (g : Counter.Cfg) (p : PC) (pc : Counter.PC) : Prop :=
  match p with
  | .enter => pc = .idle ∨ pc = .fetch false
  | .fetch d => pc = .fetch d
  | .test k d => pc = if k < g.n + 1 then (if k = 0 then .ret d else .run (k - 1)) else .ret d
  | .run b => pc = .run b
  | .complete b => pc = .complete b
  | .ret d => pc = .ret d
  | .wait => pc = .wait
  | .returned => pc = .returned

/-- A worker outside of the item. -/
def Out (pc : Counter.PC) : Prop := pc = .idle ∨ pc = .asleep ∨ pc = .fetch false

/-- A worker at `x`, seen from slot `k`. -/
def Seen (g : Counter.Cfg) (k : Nat) (x : Worker) (pc : Counter.PC) : Prop :=
  match x with
  | .inside k' _ p => if k' = k then At g p pc else Out pc
  | _ => Out pc

/-- The step is one of the other model. -/
def moves : PC → Bool
  | .test _ _ => false
  | _ => true

theorem task_lt (j : Job) (k : Nat) (f : Option Nat → Counter.PC) (d : Bool) (h1 : ∀ b, f (some b) = .run b) (h2 : f none = .ret d) :
    f (j.cfg.task k) = if k < j.n + 1 then (if k = 0 then .ret d else .run (k - 1)) else .ret d := by
  have e : j.cfg.task k = if k < j.n + 1 then (if k = 0 then none else some (k - 1)) else none := rfl
  rw [e]
  by_cases a : k < j.n + 1
  · by_cases b : k = 0
    · rw [if_pos a, if_pos a, if_pos b, if_pos b, h2]
    · rw [if_pos a, if_pos a, if_neg b, if_neg b, h1]
  · rw [if_neg a, if_neg a, h2]

theorem go_sim {sl : Slot} {st : Counter.St} {i : Nat} {j : Job} (h : Live sl st i j) (c n : Nat) (hc : c ≤ j.wakeup) (hn : c = 0 → n = j.n) (p : PC)
    (hp : At j.cfg p (st.pc c)) (hne : p ≠ .enter) (h0 : c ≠ 0 → (∀ d, p ≠ .ret d) ∧ p ≠ .wait ∧ p ≠ .returned) :
    ∃ st', st' = (if moves p then Counter.step j.cfg st (.go c) else st) ∧ Live (go sl n p).1 st' i j ∧
      At j.cfg (go sl n p).2 (st'.pc c) ∧ (∀ c', c' ≠ c → st'.pc c' = st.pc c') ∧
      st'.log = (ran i p).map (·.2) ++ st.log := by
  have hw : ¬ j.cfg.wakeup < c := by show ¬ j.wakeup < c; omega
  refine ⟨_, rfl, ?_⟩
  cases p with
  | enter => exact absurd rfl hne
  | fetch d =>
    have hp : st.pc c = .fetch d := hp
    simp only [moves, if_true, Counter.step, if_neg hw, hp, go, ran]
    refine ⟨⟨h.arg, h.wakeup, h.blockLast, h.completed, by simp only [h.next]⟩, ?_, fun c' e => by simp only [upd_ne _ _ e], rfl⟩
    simp only [At, upd_same, h.next]
    exact task_lt j st.next (fun o => match o with | some b => .run b | none => .ret d) d (fun _ => rfl) rfl
  | test k d =>
    have hp : st.pc c = _ := hp
    simp only [moves, Bool.false_eq_true, if_false, go, ran]
    refine ⟨h, ?_, fun c' e => trivial, rfl⟩
    rw [hp, h.blockLast]
    show At j.cfg (if k < j.n + 1 then (if k = 0 then .ret d else .run (k - 1)) else .ret d) (if k < j.n + 1 then (if k = 0 then .ret d else .run (k - 1)) else .ret d)
    split
    · split <;> rfl
    · rfl
  | run b =>
    have hp : st.pc c = _ := hp
    simp only [moves, if_true, Counter.step, if_neg hw, hp, go, ran]
    exact ⟨⟨h.arg, h.wakeup, h.blockLast, h.completed, h.next⟩, by simp only [At, upd_same], fun c' e => by simp only [upd_ne _ _ e], rfl⟩
  | complete b =>
    have hp : st.pc c = _ := hp
    simp only [moves, if_true, Counter.step, if_neg hw, hp, go, ran]
    exact ⟨⟨h.arg, h.wakeup, h.blockLast, by simp only [h.completed], h.next⟩, by simp only [At, upd_same], fun c' e => by simp only [upd_ne _ _ e], rfl⟩
  | ret d =>
    have hp : st.pc c = _ := hp
    have c0 : c = 0 := Classical.byContradiction fun e => (h0 e).1 d rfl
    subst c0
    simp only [moves, if_true, Counter.step, if_neg hw, hp, go, ran]
    exact ⟨⟨h.arg, h.wakeup, h.blockLast, h.completed, h.next⟩, by simp only [At, upd_same], fun c' e => by simp only [upd_ne _ _ e], rfl⟩
  | wait =>
    have hp : st.pc c = _ := hp
    have c0 : c = 0 := Classical.byContradiction fun e => (h0 e).2.1 rfl
    have hn := hn c0
    subst hn
    simp only [moves, if_true, Counter.step, if_neg hw, hp, go, ran, h.completed]
    rw [show j.cfg.n = j.n from rfl]
    by_cases hlt : st.completed < j.n
    · simp only [if_pos hlt]; exact ⟨h, hp, fun _ _ => trivial, rfl⟩
    · simp only [if_neg hlt]
      exact ⟨⟨h.arg, h.wakeup, h.blockLast, h.completed, h.next⟩, by simp only [At, upd_same], fun c' e => by simp only [upd_ne _ _ e], rfl⟩
  | returned =>
    have hp : st.pc c = _ := hp
    simp only [moves, if_true, Counter.step, if_neg hw, hp, go, ran]
    exact ⟨h, rfl, fun _ _ => trivial, rfl⟩

theorem stores_live (i : Nat) (j : Job) (sl : Slot) : Live ((stores i j).foldl Slot.put sl) Counter.init i j :=
  ⟨rfl, rfl, rfl, rfl, rfl⟩

theorem stores_ne (i : Nat) (j : Job) : stores i j ≠ [] := by simp [stores]

/-! ### The simulation -/

def Job.callers (j : Job) : Callers.Job := .counter j.cfg

def thr : Thread → Callers.Thread
  | .idle => .idle
  | .want j => .want j.callers
  | .take j => .take true j.callers
  | .unlock i j => .got true i j.callers
  | .fill i j _ => .fill i j.callers
  | .publish i j => .publish i j.callers
  | .inCall i j _ _ => .inCall i j.callers
  | .finish i j => .finish i j.callers
  | .serial j => .serial j.callers

def wrk : Worker → Callers.Worker
  | .top => .top
  | .cmp wi => .cmp wi
  | .look => .look
  | .inside k _ _ => .item k

structure Sim (s : St) (r : Callers.St) (own : Nat → Option (Nat × Job)) : Prop where
  lock : r.lock = s.lock
  main : r.main = s.main
  idx : r.poolIdx = s.poolIdx
  done : r.poolDone = s.poolDone
  thread : ∀ t, r.thread t = thr (s.thread t)
  worker : ∀ w, r.worker w = wrk (s.worker w)
  live : ∀ k i j, own k = some (i, j) → i % RING = k ∧ ∃ st, r.slot k = .counter j.cfg st ∧ Live (s.slot k) st i j ∧
    (∀ w, w ≠ 0 → Seen j.cfg k (s.worker w) (st.pc w)) ∧
    s.parts i = st.log ∧
    (∀ t j' arg pc, s.thread t = .inCall i j' arg pc → At j.cfg pc (st.pc 0)) ∧
    (∀ t j', s.thread t = .publish i j' → st.pc 0 = .fetch false)
  inside : ∀ w k arg pc, s.worker w = .inside k arg pc → ∃ i j, own k = some (i, j) ∧ w ≤ j.wakeup ∧ (pc ≠ .enter → arg = i) ∧
    pc ≠ .wait ∧ pc ≠ .returned
  call : ∀ t i j arg pc, s.thread t = .inCall i j arg pc → own (i % RING) = some (i, j) ∧ arg = i ∧ pc ≠ .enter
  pub : ∀ t i j, s.thread t = .publish i j → own (i % RING) = some (i, j)
  fin : ∀ t i j, s.thread t = .finish i j → own (i % RING) = some (i, j)
  writing : ∀ t i, (s.thread t).writing = some i → own (i % RING) = none ∧ s.parts i = []
  fill : ∀ t i j todo, s.thread t = .fill i j todo → todo ≠ [] ∧ Live (todo.foldl Slot.put (s.slot (i % RING))) Counter.init i j
  future : ∀ i, s.main < i → s.parts i = []
  newest : 0 < s.main → (∃ t, (s.thread t).writing = some s.main) ∨ ∃ j, own (s.main % RING) = some (s.main, j)
  ownle : ∀ k i j, own k = some (i, j) → i ≤ s.main
  le : s.poolIdx ≤ s.main
  cmp : ∀ w wi, s.worker w = .cmp wi → wi ≤ s.main
  look : ∀ w, s.worker w = .look → 0 < s.main

theorem thr_idx (x : Thread) : (thr x).idx = x.idx := by cases x <;> rfl

theorem writing_idx {x : Thread} {i : Nat} (h : x.writing = some i) : x.idx = some i := by
  cases x <;> simp_all [Thread.writing, Thread.idx]

theorem sim_init (mem : Nat → Slot) : Sim (init mem) Callers.init (fun _ => none) := by
  constructor <;> intros <;> simp_all [init, Callers.init, thr, wrk, Thread.writing, St.parts]

/-- A step that changes only the place of one thread (and the lock or the pool's numbers). -/
theorem sim_thread {s : St} {r : Callers.St} {own : Nat → Option (Nat × Job)} (h : Sim s r own) (t : Nat) (x : Thread)
    (hw : x.writing = (s.thread t).writing) (hp : ∀ i j, x ≠ .publish i j)
    (hf : ∀ i j todo, x = .fill i j todo → todo ≠ [] ∧ Live (todo.foldl Slot.put (s.slot (i % RING))) Counter.init i j)
    (hc : ∀ i j arg pc, x = .inCall i j arg pc → own (i % RING) = some (i, j) ∧ arg = i ∧ pc ≠ .enter ∧
      ∀ st, r.slot (i % RING) = .counter j.cfg st → At j.cfg pc (st.pc 0))
    (hfi : ∀ i j, x = .finish i j → own (i % RING) = some (i, j)) (lk : Bool) (pi pd : Nat) (hpi : pi ≤ s.main) :
    Sim { s with lock := lk, poolIdx := pi, poolDone := pd, thread := upd s.thread t x }
      { r with lock := lk, poolIdx := pi, poolDone := pd, thread := upd r.thread t (thr x) } own where
  lock := rfl
  main := h.main
  idx := rfl
  done := rfl
  thread u := by
    by_cases e : u = t
    · subst e; simp only [upd_same]
    · simp only [upd_ne _ _ e]; exact h.thread u
  worker := h.worker
  live k i j ho := by
    obtain ⟨hk, st, a1, a2, a3, a4, a5, a6⟩ := h.live k i j ho
    refine ⟨hk, st, a1, a2, a3, a4, fun u j' arg pc hu' => ?_, fun u j' hu' => ?_⟩
    · by_cases e : u = t
      · subst e; simp only [upd_same] at hu'
        obtain ⟨b1, _, _, b4⟩ := hc _ _ _ _ hu'
        subst hk; rw [ho] at b1; cases b1
        exact b4 st a1
      · simp only [upd_ne _ _ e] at hu'; exact a5 u j' arg pc hu'
    · by_cases e : u = t
      · subst e; simp only [upd_same] at hu'; exact absurd hu' (hp _ _)
      · simp only [upd_ne _ _ e] at hu'; exact a6 u j' hu'
  inside := h.inside
  call u i j arg pc hu' := by
    by_cases e : u = t
    · subst e; simp only [upd_same] at hu'
      obtain ⟨b1, b2, b3, _⟩ := hc _ _ _ _ hu'; exact ⟨b1, b2, b3⟩
    · simp only [upd_ne _ _ e] at hu'; exact h.call u i j arg pc hu'
  pub u i j hu' := by
    by_cases e : u = t
    · subst e; simp only [upd_same] at hu'; exact absurd hu' (hp _ _)
    · simp only [upd_ne _ _ e] at hu'; exact h.pub u i j hu'
  fin u i j hu' := by
    by_cases e : u = t
    · subst e; simp only [upd_same] at hu'; exact hfi _ _ hu'
    · simp only [upd_ne _ _ e] at hu'; exact h.fin u i j hu'
  writing u i hu' := by
    by_cases e : u = t
    · subst e; simp only [upd_same, hw] at hu'; exact h.writing u i hu'
    · simp only [upd_ne _ _ e] at hu'; exact h.writing u i hu'
  fill u i j todo hu' := by
    by_cases e : u = t
    · subst e; simp only [upd_same] at hu'; exact hf _ _ _ hu'
    · simp only [upd_ne _ _ e] at hu'; exact h.fill u i j todo hu'
  future := h.future
  newest h0 := by
    rcases h.newest h0 with ⟨u, hu'⟩ | h1
    · left; refine ⟨u, ?_⟩
      by_cases e : u = t
      · subst e; simp only [upd_same, hw]; exact hu'
      · simp only [upd_ne _ _ e]; exact hu'
    · exact .inr h1
  ownle := h.ownle
  le := hpi
  cmp := h.cmp
  look := h.look

theorem sim_take {s : St} {r : Callers.St} {own : Nat → Option (Nat × Job)} (h : Sim s r own) (t : Nat) (j : Job) (ht : s.thread t = .take j)
    (hin : ∀ w k arg pc, s.worker w = .inside k arg pc → k ≠ (s.main + 1) % RING)
    (hth : ∀ u i, (s.thread u).idx = some i → i % RING ≠ (s.main + 1) % RING) :
    Sim { s with main := s.main + 1, thread := upd s.thread t (.unlock (s.main + 1) j) }
      { r with main := r.main + 1, thread := upd r.thread t (thr (.unlock (s.main + 1) j)) } (upd own ((s.main + 1) % RING) none) where
  lock := h.lock
  main := by simp only [h.main]
  idx := h.idx
  done := h.done
  thread u := by
    by_cases e : u = t
    · subst e; simp only [upd_same]
    · simp only [upd_ne _ _ e]; exact h.thread u
  worker := h.worker
  live k i j' ho := by
    by_cases e : k = (s.main + 1) % RING
    · subst e; rw [upd_same] at ho; cases ho
    · rw [upd_ne _ _ e] at ho
      obtain ⟨hk, st, a1, a2, a3, a4, a5, a6⟩ := h.live k i j' ho
      refine ⟨hk, st, a1, a2, a3, a4, fun u j'' arg pc hu' => ?_, fun u j'' hu' => ?_⟩
      · by_cases e : u = t
        · subst e; simp only [upd_same] at hu'; cases hu'
        · simp only [upd_ne _ _ e] at hu'; exact a5 u j'' arg pc hu'
      · by_cases e : u = t
        · subst e; simp only [upd_same] at hu'; cases hu'
        · simp only [upd_ne _ _ e] at hu'; exact a6 u j'' hu'
  inside w k arg pc hw := by
    have hk := hin w k arg pc hw
    rw [upd_ne _ _ hk]; exact h.inside w k arg pc hw
  call u i j' arg pc hu' := by
    by_cases e : u = t
    · subst e; simp only [upd_same] at hu'; cases hu'
    · simp only [upd_ne _ _ e] at hu'
      rw [upd_ne _ _ (hth u i (by rw [hu']; rfl))]; exact h.call u i j' arg pc hu'
  pub u i j' hu' := by
    by_cases e : u = t
    · subst e; simp only [upd_same] at hu'; cases hu'
    · simp only [upd_ne _ _ e] at hu'
      rw [upd_ne _ _ (hth u i (by rw [hu']; rfl))]; exact h.pub u i j' hu'
  fin u i j' hu' := by
    by_cases e : u = t
    · subst e; simp only [upd_same] at hu'; cases hu'
    · simp only [upd_ne _ _ e] at hu'
      rw [upd_ne _ _ (hth u i (by rw [hu']; rfl))]; exact h.fin u i j' hu'
  writing u i hu' := by
    by_cases e : u = t
    · subst e; simp only [upd_same, Thread.writing, Option.some.injEq] at hu'; subst hu'
      exact ⟨upd_same _ _ _, h.future _ (Nat.lt_succ_self _)⟩
    · simp only [upd_ne _ _ e] at hu'
      rw [upd_ne _ _ (hth u i (writing_idx hu'))]; exact h.writing u i hu'
  fill u i j' todo hu' := by
    by_cases e : u = t
    · subst e; simp only [upd_same] at hu'; cases hu'
    · simp only [upd_ne _ _ e] at hu'; exact h.fill u i j' todo hu'
  future i hi := h.future i (by have : s.main + 1 < i := hi; omega)
  newest _ := by left; exact ⟨t, by simp only [upd_same]; rfl⟩
  ownle k i j' ho := by
    by_cases e : k = (s.main + 1) % RING
    · subst e; rw [upd_same] at ho; cases ho
    · rw [upd_ne _ _ e] at ho; have := h.ownle k i j' ho; show i ≤ s.main + 1; omega
  le := by have := h.le; show s.poolIdx ≤ s.main + 1; omega
  cmp w wi hw := by have := h.cmp w wi hw; show wi ≤ s.main + 1; omega
  look w hw := Nat.succ_pos _

/-- A store into an item that is being written; the item is not complete afterwards. -/
theorem sim_store {s : St} {r : Callers.St} {own : Nat → Option (Nat × Job)} (h : Sim s r own) (t i : Nat) (st0 : Store) (x : Thread)
    (ht : (s.thread t).writing = some i) (hx : x.writing = some i) (hthr : thr x = thr (s.thread t))
    (hfill : ∀ i' j' todo, x = .fill i' j' todo → i' = i ∧ todo ≠ [] ∧ Live (todo.foldl Slot.put ((s.slot (i % RING)).put st0)) Counter.init i j')
    (hth : ∀ u i', u ≠ t → (s.thread u).writing = some i' → i' % RING ≠ i % RING) :
    Sim { s with slot := upd s.slot (i % RING) ((s.slot (i % RING)).put st0), thread := upd s.thread t x } r own := by
  have hown := (h.writing t i ht).1
  have hne : ∀ k i' j', own k = some (i', j') → k ≠ i % RING := fun k i' j' e e' => by rw [e', hown] at e; cases e
  exact {
    lock := h.lock
    main := h.main
    idx := h.idx
    done := h.done
    thread := fun u => by
      by_cases e : u = t
      · subst e; simp only [upd_same, hthr]; exact h.thread u
      · simp only [upd_ne _ _ e]; exact h.thread u
    worker := h.worker
    live := fun k i' j' ho => by
      obtain ⟨hk, st, a1, a2, a3, a4, a5, a6⟩ := h.live k i' j' ho
      refine ⟨hk, st, a1, ?_, a3, a4, fun u j'' arg pc hu' => ?_, fun u j'' hu' => ?_⟩
      · simp only [upd_ne _ _ (hne k i' j' ho)]; exact a2
      · by_cases e : u = t
        · subst e; simp only [upd_same] at hu'; subst hu'; cases hx
        · simp only [upd_ne _ _ e] at hu'; exact a5 u j'' arg pc hu'
      · by_cases e : u = t
        · subst e; simp only [upd_same] at hu'; subst hu'; cases hx
        · simp only [upd_ne _ _ e] at hu'; exact a6 u j'' hu'
    inside := h.inside
    call := fun u i' j' arg pc hu' => by
      by_cases e : u = t
      · subst e; simp only [upd_same] at hu'; subst hu'; cases hx
      · simp only [upd_ne _ _ e] at hu'; exact h.call u i' j' arg pc hu'
    pub := fun u i' j' hu' => by
      by_cases e : u = t
      · subst e; simp only [upd_same] at hu'; subst hu'; cases hx
      · simp only [upd_ne _ _ e] at hu'; exact h.pub u i' j' hu'
    fin := fun u i' j' hu' => by
      by_cases e : u = t
      · subst e; simp only [upd_same] at hu'; subst hu'; cases hx
      · simp only [upd_ne _ _ e] at hu'; exact h.fin u i' j' hu'
    writing := fun u i' hu' => by
      by_cases e : u = t
      · subst e; simp only [upd_same, hx, Option.some.injEq] at hu'; subst hu'; exact h.writing u i ht
      · simp only [upd_ne _ _ e] at hu'; exact h.writing u i' hu'
    fill := fun u i' j' todo hu' => by
      by_cases e : u = t
      · subst e; simp only [upd_same] at hu'
        obtain ⟨b1, b2, b3⟩ := hfill _ _ _ hu'
        subst b1; simp only [upd_same]; exact ⟨b2, b3⟩
      · simp only [upd_ne _ _ e] at hu'
        simp only [upd_ne _ _ (hth u i' e (by rw [hu']; rfl))]; exact h.fill u i' j' todo hu'
    future := h.future
    newest := fun h0 => by
      rcases h.newest h0 with ⟨u, hu'⟩ | h1
      · left; refine ⟨u, ?_⟩
        by_cases e : u = t
        · subst e; simp only [upd_same]; rw [hx, ← ht]; exact hu'
        · simp only [upd_ne _ _ e]; exact hu'
      · exact .inr h1
    ownle := h.ownle
    le := h.le
    cmp := h.cmp
    look := h.look }

/-- The last store. -/
theorem sim_last {s : St} {r : Callers.St} {own : Nat → Option (Nat × Job)} (h : Sim s r own) (t i : Nat) (j : Job) (x : Store)
    (ht : s.thread t = .fill i j [x]) (hi : i ≤ s.main)
    (hth : ∀ u i', u ≠ t → (s.thread u).idx = some i' → i' % RING ≠ i % RING) :
    Sim { s with slot := upd s.slot (i % RING) ((s.slot (i % RING)).put x), thread := upd s.thread t (.publish i j) }
      { r with slot := upd r.slot (i % RING) j.callers.fresh, thread := upd r.thread t (.publish i j.callers) }
      (upd own (i % RING) (some (i, j))) := by
  have hw : (s.thread t).writing = some i := by rw [ht]; rfl
  obtain ⟨hown, hcalls⟩ := h.writing t i hw
  have hlive : Live ((s.slot (i % RING)).put x) Counter.init i j := (h.fill t i j [x] ht).2
  have hnone : ∀ w arg pc, s.worker w ≠ .inside (i % RING) arg pc := fun w arg pc e => by
    obtain ⟨i', j', e', _⟩ := h.inside w _ arg pc e; rw [hown] at e'; cases e'
  have hne : ∀ k i' j', own k = some (i', j') → k ≠ i % RING := fun k i' j' e e' => by rw [e', hown] at e; cases e
  exact {
    lock := h.lock
    main := h.main
    idx := h.idx
    done := h.done
    thread := fun u => by
      by_cases e : u = t
      · subst e; simp only [upd_same]; rfl
      · simp only [upd_ne _ _ e]; exact h.thread u
    worker := h.worker
    live := fun k i' j' ho => by
      by_cases ek : k = i % RING
      · subst ek; rw [upd_same] at ho; cases ho
        refine ⟨rfl, Counter.init, by simp only [upd_same]; rfl, by simp only [upd_same]; exact hlive, fun w hw0 => ?_, by rw [show ({ s with
            slot := upd s.slot (i % RING) ((s.slot (i % RING)).put x), thread := upd s.thread t (.publish i j) } : St).parts i = s.parts i from rfl, hcalls]; rfl,
          fun u j'' arg pc hu' => ?_, fun u j'' hu' => ?_⟩
        · have : (Counter.init.pc w) = .idle := by simp only [Counter.init, if_neg hw0]
          rw [this]
          show Seen j.cfg (i % RING) (s.worker w) .idle
          cases e : s.worker w with
          | inside k arg pc =>
            simp only [Seen]; split
            · rename_i e'; subst e'; exact absurd e (hnone w arg pc)
            · exact .inl rfl
          | _ => exact .inl rfl
        · by_cases e : u = t
          · subst e; simp only [upd_same] at hu'; cases hu'
          · simp only [upd_ne _ _ e] at hu'; exact absurd rfl (hth u i e (by rw [hu']; rfl))
        · rfl
      · rw [upd_ne _ _ ek] at ho
        obtain ⟨hk, st, a1, a2, a3, a4, a5, a6⟩ := h.live k i' j' ho
        refine ⟨hk, st, by simp only [upd_ne _ _ ek]; exact a1, by simp only [upd_ne _ _ ek]; exact a2, a3, a4, fun u j'' arg pc hu' => ?_, fun u j'' hu' => ?_⟩
        · by_cases e : u = t
          · subst e; simp only [upd_same] at hu'; cases hu'
          · simp only [upd_ne _ _ e] at hu'; exact a5 u j'' arg pc hu'
        · by_cases e : u = t
          · subst e; simp only [upd_same] at hu'; cases hu'; exact absurd hk.symm ek
          · simp only [upd_ne _ _ e] at hu'; exact a6 u j'' hu'
    inside := fun w k arg pc hw' => by
      have : k ≠ i % RING := fun e => by subst e; exact hnone w arg pc hw'
      rw [upd_ne _ _ this]; exact h.inside w k arg pc hw'
    call := fun u i' j' arg pc hu' => by
      by_cases e : u = t
      · subst e; simp only [upd_same] at hu'; cases hu'
      · simp only [upd_ne _ _ e] at hu'
        rw [upd_ne _ _ (hth u i' e (by rw [hu']; rfl))]; exact h.call u i' j' arg pc hu'
    pub := fun u i' j' hu' => by
      by_cases e : u = t
      · subst e; simp only [upd_same] at hu'; cases hu'; exact upd_same _ _ _
      · simp only [upd_ne _ _ e] at hu'
        rw [upd_ne _ _ (hth u i' e (by rw [hu']; rfl))]; exact h.pub u i' j' hu'
    fin := fun u i' j' hu' => by
      by_cases e : u = t
      · subst e; simp only [upd_same] at hu'; cases hu'
      · simp only [upd_ne _ _ e] at hu'
        rw [upd_ne _ _ (hth u i' e (by rw [hu']; rfl))]; exact h.fin u i' j' hu'
    writing := fun u i' hu' => by
      by_cases e : u = t
      · subst e; simp only [upd_same] at hu'; cases hu'
      · simp only [upd_ne _ _ e] at hu'
        rw [upd_ne _ _ (hth u i' e (writing_idx hu'))]; exact h.writing u i' hu'
    fill := fun u i' j' todo hu' => by
      by_cases e : u = t
      · subst e; simp only [upd_same] at hu'; cases hu'
      · simp only [upd_ne _ _ e] at hu'
        simp only [upd_ne _ _ (hth u i' e (by rw [hu']; rfl))]; exact h.fill u i' j' todo hu'
    future := h.future
    newest := fun h0 => by
      rcases h.newest h0 with ⟨u, hu'⟩ | ⟨j', h1⟩
      · by_cases e : u = t
        · subst e; rw [hw] at hu'; cases hu'; right; exact ⟨j, upd_same _ _ _⟩
        · left; exact ⟨u, by simp only [upd_ne _ _ e]; exact hu'⟩
      · right; exact ⟨j', by rw [upd_ne _ _ (hne _ _ _ h1)]; exact h1⟩
    ownle := fun k i' j' ho => by
      by_cases ek : k = i % RING
      · subst ek; rw [upd_same] at ho; cases ho; exact hi
      · rw [upd_ne _ _ ek] at ho; exact h.ownle k i' j' ho
    le := h.le
    cmp := h.cmp
    look := h.look }

theorem parts_same (s : St) (i : Nat) (pc : PC) (f : St → St) (hf : (f s).runs = ran i pc ++ s.runs) :
    (f s).parts i = (ran i pc).map (·.2) ++ s.parts i := by
  simp only [St.parts, hf, List.filter_append, List.map_append]
  congr 1
  cases pc <;> simp [ran]

theorem parts_other (s : St) (i i' : Nat) (h : i' ≠ i) (pc : PC) (f : St → St) (hf : (f s).runs = ran i pc ++ s.runs) :
    (f s).parts i' = s.parts i' := by
  simp only [St.parts, hf, List.filter_append, List.map_append]
  have : (ran i pc).filter (fun r => r.1 == i') = [] := by
    cases pc <;> simp [ran, Ne.symm h]
  rw [this]; rfl

/-- A step of the caller inside its item. -/
theorem sim_call {s : St} {r : Callers.St} {own : Nat → Option (Nat × Job)} (h : Sim s r own) (t i : Nat) (j : Job) (arg : Nat) (pc : PC)
    (ht : s.thread t = .inCall i j arg pc) (st st' : Counter.St) (hst : r.slot (i % RING) = .counter j.cfg st)
    (hst' : st' = if moves pc then Counter.step j.cfg st (.go 0) else st)
    (hth : ∀ u i', u ≠ t → (s.thread u).idx = some i' → i' ≠ i) :
    Sim { s with slot := upd s.slot (i % RING) (go (s.slot (i % RING)) j.n pc).1,
                 thread := upd s.thread t (.inCall i j arg (go (s.slot (i % RING)) j.n pc).2),
                 runs := ran arg pc ++ s.runs }
      { r with slot := upd r.slot (i % RING) (.counter j.cfg st') } own := by
  obtain ⟨hown, rfl, hne⟩ := h.call t i j arg pc ht
  have hi := h.ownle _ _ _ hown
  obtain ⟨hk, st0, a1, a2, a3, a4, a5, a6⟩ := h.live _ _ _ hown
  rw [hst] at a1
  obtain rfl : st = st0 := by injection a1
  have p1 := a5 t j arg pc ht
  obtain ⟨st2, gs, g1, g2, g4, g5⟩ := go_sim a2 0 j.n (Nat.zero_le _) (fun _ => rfl) pc p1 hne (fun e => absurd rfl e)
  obtain rfl : st' = st2 := hst'.trans gs.symm
  have hoth : ∀ k i' j', own k = some (i', j') → k ≠ arg % RING → i' ≠ arg := fun k i' j' e ek e' => by
    subst e'; exact ek (h.live k _ _ e).1.symm
  have hgo : (go (s.slot (arg % RING)) j.n pc).2 ≠ .enter := by
    cases pc <;> simp only [go] <;> (repeat' split) <;> simp_all
  exact {
    lock := h.lock
    main := h.main
    idx := h.idx
    done := h.done
    thread := fun u => by
      by_cases e : u = t
      · subst e; simp only [upd_same]; rw [h.thread u, ht]; rfl
      · simp only [upd_ne _ _ e]; exact h.thread u
    worker := h.worker
    live := fun k i' j' ho => by
      by_cases ek : k = arg % RING
      · subst ek; rw [hown] at ho; cases ho
        refine ⟨rfl, st', by simp only [upd_same], by simp only [upd_same]; exact g1, fun w hw0 => ?_, ?_,
          fun u j'' arg' pc' hu' => ?_, fun u j'' hu' => ?_⟩
        · rw [g4 w hw0]; exact a3 w hw0
        · rw [g5, ← a4]; exact parts_same s arg pc (fun _ => _) rfl
        · by_cases e : u = t
          · subst e; simp only [upd_same] at hu'; cases hu'; exact g2
          · simp only [upd_ne _ _ e] at hu'; exact absurd rfl (hth u arg e (by rw [hu']; rfl))
        · by_cases e : u = t
          · subst e; simp only [upd_same] at hu'; cases hu'
          · simp only [upd_ne _ _ e] at hu'; exact absurd rfl (hth u arg e (by rw [hu']; rfl))
      · obtain ⟨hk', st2, b1, b2, b3, b4, b5, b6⟩ := h.live k i' j' ho
        refine ⟨hk', st2, by simp only [upd_ne _ _ ek]; exact b1, by simp only [upd_ne _ _ ek]; exact b2, b3, ?_, fun u j'' arg' pc' hu' => ?_, fun u j'' hu' => ?_⟩
        · rw [← b4]; exact parts_other s arg i' (hoth k i' j' ho ek) pc (fun _ => _) rfl
        · by_cases e : u = t
          · subst e; simp only [upd_same] at hu'; cases hu'; exact absurd rfl (hoth k _ j' ho ek)
          · simp only [upd_ne _ _ e] at hu'; exact b5 u j'' arg' pc' hu'
        · by_cases e : u = t
          · subst e; simp only [upd_same] at hu'; cases hu'
          · simp only [upd_ne _ _ e] at hu'; exact b6 u j'' hu'
    inside := h.inside
    call := fun u i' j' arg' pc' hu' => by
      by_cases e : u = t
      · subst e; simp only [upd_same] at hu'; cases hu'; exact ⟨hown, rfl, hgo⟩
      · simp only [upd_ne _ _ e] at hu'; exact h.call u i' j' arg' pc' hu'
    pub := fun u i' j' hu' => by
      by_cases e : u = t
      · subst e; simp only [upd_same] at hu'; cases hu'
      · simp only [upd_ne _ _ e] at hu'; exact h.pub u i' j' hu'
    fin := fun u i' j' hu' => by
      by_cases e : u = t
      · subst e; simp only [upd_same] at hu'; cases hu'
      · simp only [upd_ne _ _ e] at hu'; exact h.fin u i' j' hu'
    writing := fun u i' hu' => by
      by_cases e : u = t
      · subst e; simp only [upd_same] at hu'; cases hu'
      · simp only [upd_ne _ _ e] at hu'
        refine ⟨(h.writing u i' hu').1, ?_⟩
        rw [← (h.writing u i' hu').2]; exact parts_other s arg i' (hth u i' e (writing_idx hu')) pc (fun _ => _) rfl
    fill := fun u i' j' todo hu' => by
      by_cases e : u = t
      · subst e; simp only [upd_same] at hu'; cases hu'
      · simp only [upd_ne _ _ e] at hu'
        have : i' % RING ≠ arg % RING := fun e' => by
          have := (h.writing u i' (by rw [hu']; rfl)).1; rw [e', hown] at this; cases this
        simp only [upd_ne _ _ this]; exact h.fill u i' j' todo hu'
    future := fun i' hi' => by
      have : s.main < i' := hi'
      rw [← h.future i' this]; exact parts_other s arg i' (by omega) pc (fun _ => _) rfl
    newest := fun h0 => by
      rcases h.newest h0 with ⟨u, hu'⟩ | h1
      · left; refine ⟨u, ?_⟩
        by_cases e : u = t
        · subst e; rw [ht] at hu'; cases hu'
        · simp only [upd_ne _ _ e]; exact hu'
      · exact .inr h1
    ownle := h.ownle
    le := h.le
    cmp := h.cmp
    look := h.look }

theorem upd_self {α : Type _} (f : Nat → α) (k : Nat) : upd f k (f k) = f := by
  funext x; by_cases e : x = k
  · subst e; rw [upd_same]
  · rw [upd_ne _ _ e]

/-- A worker changes its place outside of items, or goes into the newest item. -/
theorem sim_place {s : St} {r : Callers.St} {own : Nat → Option (Nat × Job)} (h : Sim s r own) (w : Nat) (x : Worker)
    (h1 : ∀ g k pc, Seen g k (s.worker w) pc → Seen g k x pc) (hin : ∀ k arg pc, x ≠ .inside k arg pc)
    (hc : ∀ wi, x = .cmp wi → wi ≤ s.main) (hl : x = .look → 0 < s.main) :
    Sim { s with worker := upd s.worker w x } { r with worker := upd r.worker w (wrk x) } own where
  lock := h.lock
  main := h.main
  idx := h.idx
  done := h.done
  thread := h.thread
  worker u := by
    by_cases e : u = w
    · subst e; simp only [upd_same]
    · simp only [upd_ne _ _ e]; exact h.worker u
  live k i j ho := by
    obtain ⟨hk, st, a1, a2, a3, a4, a5, a6⟩ := h.live k i j ho
    refine ⟨hk, st, a1, a2, fun u hu => ?_, a4, a5, a6⟩
    by_cases e : u = w
    · subst e; simp only [upd_same]; exact h1 _ _ _ (a3 u hu)
    · simp only [upd_ne _ _ e]; exact a3 u hu
  inside u k arg pc hu := by
    by_cases e : u = w
    · subst e; simp only [upd_same] at hu
      exact absurd hu (hin k arg pc)
    · simp only [upd_ne _ _ e] at hu; exact h.inside u k arg pc hu
  call := h.call
  pub := h.pub
  fin := h.fin
  writing := h.writing
  fill := h.fill
  future := h.future
  newest := h.newest
  ownle := h.ownle
  le := h.le
  cmp u wi hu := by
    by_cases e : u = w
    · subst e; simp only [upd_same] at hu; exact hc wi hu
    · simp only [upd_ne _ _ e] at hu; exact h.cmp u wi hu
  look u hu := by
    by_cases e : u = w
    · subst e; simp only [upd_same] at hu; exact hl hu
    · simp only [upd_ne _ _ e] at hu; exact h.look u hu

/-- A step of a worker inside an item; `x` is its new place. -/
theorem sim_work {s : St} {r : Callers.St} {own : Nat → Option (Nat × Job)} (h : Sim s r own) (w k i : Nat) (j : Job) (pc : PC)
    (ho : own k = some (i, j)) (w0 : w ≠ 0) (st st' : Counter.St) (hst : r.slot k = .counter j.cfg st)
    (sl : Slot) (x : Worker) (g1 : Live sl st' i j) (g2 : Seen j.cfg k x (st'.pc w)) (g4 : ∀ c', c' ≠ w → st'.pc c' = st.pc c')
    (g5 : st'.log = (ran i pc).map (·.2) ++ st.log) (hplace : ∀ g k' p, k' ≠ k → Seen g k' (s.worker w) p → Seen g k' x p)
    (hx : (∃ a pc', x = .inside k a pc' ∧ w ≤ j.wakeup ∧ (pc' ≠ .enter → a = i) ∧ pc' ≠ .wait ∧ pc' ≠ .returned) ∨ x = .top) :
    Sim { s with slot := upd s.slot k sl, worker := upd s.worker w x, runs := ran i pc ++ s.runs }
      { r with slot := upd r.slot k (.counter j.cfg st'), worker := upd r.worker w (wrk x) } own := by
  have hi := h.ownle _ _ _ ho
  obtain ⟨hk, st0, a1, a2, a3, a4, a5, a6⟩ := h.live _ _ _ ho
  rw [hst] at a1
  obtain rfl : st = st0 := by injection a1
  have hoth : ∀ k' i' j', own k' = some (i', j') → k' ≠ k → i' ≠ i := fun k' i' j' e ek e' => by
    subst e'; exact ek ((h.live k' _ _ e).1.symm.trans hk)
  exact {
    lock := h.lock
    main := h.main
    idx := h.idx
    done := h.done
    thread := h.thread
    worker := fun u => by
      by_cases e : u = w
      · subst e; simp only [upd_same]
      · simp only [upd_ne _ _ e]; exact h.worker u
    live := fun k' i' j' ho' => by
      by_cases ek : k' = k
      · subst ek; rw [ho] at ho'; cases ho'
        refine ⟨hk, st', by simp only [upd_same], by simp only [upd_same]; exact g1, fun u hu => ?_, ?_,
          fun u j'' arg' pc' hu' => ?_, fun u j'' hu' => ?_⟩
        · by_cases e : u = w
          · subst e; simp only [upd_same]; exact g2
          · simp only [upd_ne _ _ e]; rw [g4 u e]; exact a3 u hu
        · rw [g5, ← a4]; exact parts_same s i pc (fun _ => _) rfl
        · rw [g4 0 (Ne.symm w0)]; exact a5 u j'' arg' pc' hu'
        · rw [g4 0 (Ne.symm w0)]; exact a6 u j'' hu'
      · obtain ⟨hk', st2, b1, b2, b3, b4, b5, b6⟩ := h.live k' i' j' ho'
        refine ⟨hk', st2, by simp only [upd_ne _ _ ek]; exact b1, by simp only [upd_ne _ _ ek]; exact b2, fun u hu => ?_, ?_, b5, b6⟩
        · by_cases e : u = w
          · subst e; simp only [upd_same]; exact hplace _ _ _ ek (b3 u hu)
          · simp only [upd_ne _ _ e]; exact b3 u hu
        · rw [← b4]; exact parts_other s i i' (hoth k' i' j' ho' ek) pc (fun _ => _) rfl
    inside := fun u k' arg' pc' hu => by
      by_cases e : u = w
      · subst e; simp only [upd_same] at hu
        rcases hx with ⟨a, pc2, rfl, n0, n1, n2, n3⟩ | rfl
        · cases hu; exact ⟨i, j, ho, n0, n1, n2, n3⟩
        · cases hu
      · simp only [upd_ne _ _ e] at hu; exact h.inside u k' arg' pc' hu
    call := h.call
    pub := h.pub
    fin := h.fin
    writing := fun u i' hu' => by
      refine ⟨(h.writing u i' hu').1, ?_⟩
      have : i' ≠ i := fun e => by
        have := (h.writing u i' hu').1; rw [e, hk, ho] at this; cases this
      rw [← (h.writing u i' hu').2]; exact parts_other s i i' this pc (fun _ => _) rfl
    fill := fun u i' j' todo hu' => by
      have : i' % RING ≠ k := fun e' => by
        have := (h.writing u i' (by rw [show s.thread u = _ from hu']; rfl)).1; rw [e', ho] at this; cases this
      simp only [upd_ne _ _ this]; exact h.fill u i' j' todo hu'
    future := fun i' hi' => by
      have : s.main < i' := hi'
      rw [← h.future i' this]; exact parts_other s i i' (by omega) pc (fun _ => _) rfl
    newest := h.newest
    ownle := h.ownle
    le := h.le
    cmp := fun u wi hu => by
      by_cases e : u = w
      · subst e; simp only [upd_same] at hu; rcases hx with ⟨_, _, rfl, _⟩ | rfl <;> cases hu
      · simp only [upd_ne _ _ e] at hu; exact h.cmp u wi hu
    look := fun u hu => by
      by_cases e : u = w
      · subst e; simp only [upd_same] at hu; rcases hx with ⟨_, _, rfl, _⟩ | rfl <;> cases hu
      · simp only [upd_ne _ _ e] at hu; exact h.look u hu }

theorem mod_ne {i i' main : Nat} (h1 : i ≤ main) (h2 : i' ≤ main) (b1 : main < i + 1024) (b2 : main < i' + 1024)
    (h : i ≠ i') : i % RING ≠ i' % RING := by
  simp only [RING]; omega

/-- The same step in the other model. -/
def Act.same : Act → Callers.Act
  | .start t j => .start t true j.callers
  | .thread t => .thread t
  | .worker w => .worker w

/-- Steps that may be none of the other model. -/
def Slow (s : St) : Act → Prop
  | .start _ _ => False
  | .thread t => (∃ i j x y todo, s.thread t = .fill i j (x :: y :: todo)) ∨ ∃ i j arg k d, s.thread t = .inCall i j arg (.test k d)
  | .worker w => ∃ k arg, s.worker w = .inside k arg .enter ∨ ∃ n d, s.worker w = .inside k arg (.test n d)

/-- The step stands for the same one of the other model, or for none. -/
def Follows (s : St) (a : Act) (r : Callers.St) : Prop :=
  ∃ own', (Slow s a ∧ Sim (step s a) r own') ∨ Sim (step s a) (Callers.step r a.same) own'

theorem step_start {s : St} {r : Callers.St} {own : Nat → Option (Nat × Job)} (h : Sim s r own) (t : Nat) (j : Job) :
    Follows s (.start t j) r := by
  cases ht : s.thread t with
  | idle =>
    refine ⟨own, .inr ?_⟩
    simp only [step, Act.same, Callers.step, h.thread t, ht, thr, if_true]
    have := sim_thread h t (.want j) (by rw [ht]; rfl) (by simp) (by simp) (by simp) (by simp) s.lock s.poolIdx s.poolDone h.le
    convert this using 2 <;> simp [h.lock, h.idx, h.done, thr]
  | _ => refine ⟨own, .inr ?_⟩; simp only [step, Act.same, Callers.step, h.thread t, ht, thr]; exact h

theorem at_returned {g : Counter.Cfg} {p : PC} {pc : Counter.PC} (h : At g p pc) : pc = .returned ↔ p = .returned := by
  cases p <;> simp only [At] at h
  · rcases h with rfl | rfl <;> simp
  case test k d => subst h; (repeat' split) <;> simp
  all_goals (subst h; simp)

theorem step_thread {s : St} {r : Callers.St} {own : Nat → Option (Nat × Job)} (h : Sim s r own) (inv : Callers.Inv False r) (t : Nat)
    (hu : Undisturbed s (.thread t)) (hc : Calm s) (hc' : Calm (step s (.thread t))) :
    Follows s (.thread t) r := by
  have range : ∀ u i, (s.thread u).idx = some i → 1 ≤ i ∧ i ≤ s.main := fun u i e => by
    have := inv.range u i (by rw [h.thread, thr_idx]; exact e); rw [h.main] at this; exact this
  have dist : ∀ u u' i, (s.thread u).idx = some i → (s.thread u').idx = some i → u = u' := fun u u' i e e' =>
    inv.dist u u' i (by rw [h.thread, thr_idx]; exact e) (by rw [h.thread, thr_idx]; exact e')
  have apart : ∀ {i}, (s.thread t).idx = some i → ∀ u i', u ≠ t → (s.thread u).idx = some i' → i' % RING ≠ i % RING := by
    intro i e u i' hut e'
    refine mod_ne (range _ _ e').2 (range _ _ e).2 (hc _ _ e') (hc _ _ e) (fun e2 => hut ?_)
    subst e2; exact dist _ _ _ e' e
  cases ht : s.thread t with
  | idle =>
    refine ⟨own, .inr ?_⟩; simp only [step, Act.same, Callers.step, h.thread t, ht, thr]; exact h
  | want j =>
    refine ⟨own, .inr ?_⟩
    simp only [step, Act.same, Callers.step, h.thread t, ht, thr, h.lock]
    split
    · have := sim_thread h t (.serial j) (by rw [ht]; rfl) (by simp) (by simp) (by simp) (by simp) s.lock s.poolIdx s.poolDone h.le
      convert this using 2 <;> simp [h.lock, h.idx, h.done, thr]
    · have := sim_thread h t (.take j) (by rw [ht]; rfl) (by simp) (by simp) (by simp) (by simp) true s.poolIdx s.poolDone h.le
      convert this using 2 <;> simp [h.idx, h.done, thr]
  | take j =>
    have hst : step s (.thread t) = { s with main := s.main + 1, thread := upd s.thread t (.unlock (s.main + 1) j) } := by
      simp only [step, ht]
    rw [hst] at hc'
    refine ⟨upd own ((s.main + 1) % RING) none, .inr ?_⟩
    rw [hst]
    simp only [Act.same, Callers.step, h.thread t, ht, thr]
    have := sim_take h t j ht (hu j ht) (fun u i e => ?_)
    · convert this using 2
      simp only [thr, h.main]
    · have hut : u ≠ t := fun e2 => by subst e2; rw [ht] at e; cases e
      have b : s.main + 1 < i + 1024 := hc' u i (by simp only [upd_ne _ _ hut]; exact e)
      have := (range u i e).2
      simp only [RING]; omega
  | unlock i j =>
    refine ⟨own, .inr ?_⟩
    simp only [step, Act.same, Callers.step, h.thread t, ht, thr, if_true]
    have := sim_thread h t (.fill i j (stores i j)) (by rw [ht]; rfl) (by simp) (by
      intro i' j' todo e; cases e
      exact ⟨stores_ne i j, stores_live i j _⟩) (by simp) (by simp) false s.poolIdx s.poolDone h.le
    convert this using 2 <;> simp [h.idx, h.done, thr]
  | fill i j todo =>
    obtain ⟨f1, f2⟩ := h.fill t i j todo ht
    match todo, f1 with
    | [x], _ =>
      refine ⟨upd own (i % RING) (some (i, j)), .inr ?_⟩
      simp only [step, Act.same, Callers.step, h.thread t, ht, thr, List.isEmpty_nil, if_true]
      exact sim_last h t i j x ht (range t i (by rw [ht]; rfl)).2 (apart (by rw [ht]; rfl))
    | x :: y :: todo, _ =>
      refine ⟨own, .inl ⟨.inl ⟨i, j, x, y, todo, ht⟩, ?_⟩⟩
      simp only [step, ht, List.isEmpty_cons, Bool.false_eq_true, if_false]
      refine (sim_store h t i x (.fill i j (y :: todo)) (by rw [ht]; rfl) rfl (by rw [ht]; rfl) ?_
        (fun u i' hut e => apart (by rw [ht]; rfl) u i' hut (writing_idx e)))
      intro i' j' todo' e; cases e; exact ⟨rfl, by simp, f2⟩
  | publish i j =>
    refine ⟨own, .inr ?_⟩
    simp only [step, Act.same, Callers.step, h.thread t, ht, thr]
    have ho := h.pub t i j ht
    obtain ⟨hk, st, a1, a2, a3, a4, a5, a6⟩ := h.live _ _ _ ho
    have := sim_thread h t (.inCall i j (s.slot (i % RING)).arg (.fetch false)) (by rw [ht]; rfl) (by simp) (by simp) (by
      intro i' j' arg pc e; cases e
      refine ⟨ho, a2.arg, by simp, fun st' e => ?_⟩
      rw [a1] at e; injection e with _ e; subst e
      exact a6 t j ht) (by simp) s.lock i s.poolDone (range t i (by rw [ht]; rfl)).2
    convert this using 2 <;> simp [h.lock, h.done, thr]
  | inCall i j arg pc =>
    obtain ⟨ho, hag, hne⟩ := h.call t i j arg pc ht
    obtain ⟨hk, st, a1, a2, a3, a4, a5, a6⟩ := h.live _ _ _ ho
    have hp := a5 t j arg pc ht
    have hret : (r.slot (i % RING)).returned ↔ pc = .returned := by
      rw [a1]; simp only [Callers.Item.returned]; exact at_returned hp
    have e1 : i % Callers.RING = i % RING := rfl
    have hoth : ∀ u i', u ≠ t → (s.thread u).idx = some i' → i' ≠ i := fun u i' hut e' e2 => hut (by
      subst e2; exact dist _ _ _ e' (by rw [ht]; rfl))
    by_cases e : pc = .returned
    · refine ⟨own, .inr ?_⟩
      simp only [step, Act.same, Callers.step, h.thread t, ht, thr]
      rw [if_pos e, if_pos (by rw [e1]; exact hret.2 e)]
      have := sim_thread h t (.finish i j) (by rw [ht]; rfl) (by simp) (by simp) (by simp) (by intro i' j' e; cases e; exact ho) s.lock s.poolIdx s.poolDone h.le
      convert this using 2 <;> simp [h.lock, h.idx, h.done, thr]
    · have hc := sim_call h t i j arg pc ht st _ a1 rfl hoth
      refine ⟨own, ?_⟩
      have hst : step s (.thread t) = { s with slot := upd s.slot (i % RING) (go (s.slot (i % RING)) j.n pc).1, thread := upd s.thread t (.inCall i j arg (go (s.slot (i % RING)) j.n pc).2), runs := ran arg pc ++ s.runs } := by
        simp only [step, ht]; rw [if_neg e]
      rw [hst]
      cases hm : moves pc with
      | false =>
        left
        refine ⟨.inr ?_, ?_⟩
        · cases pc with
          | test k d => exact ⟨i, j, arg, k, d, ht⟩
          | _ => cases hm
        rw [hm] at hc
        simp only [Bool.false_eq_true, if_false] at hc
        rw [← a1, upd_self] at hc
        exact hc
      | true =>
        right
        rw [hm] at hc
        simp only [if_true] at hc
        simp only [Act.same, Callers.step, h.thread t, ht, thr]
        rw [if_neg (by rw [e1]; exact fun e' => e (hret.1 e')), e1, a1]
        exact hc
  | finish i j =>
    refine ⟨own, .inr ?_⟩
    simp only [step, Act.same, Callers.step, h.thread t, ht, thr]
    have := sim_thread h t .idle (by rw [ht]; rfl) (by simp) (by simp) (by simp) (by simp) s.lock s.poolIdx i h.le
    convert this using 2 <;> simp [h.lock, h.idx, thr]
  | serial j =>
    refine ⟨own, .inr ?_⟩
    simp only [step, Act.same, Callers.step, h.thread t, ht, thr]
    have := sim_thread h t .idle (by rw [ht]; rfl) (by simp) (by simp) (by simp) (by simp) s.lock s.poolIdx s.poolDone h.le
    convert this using 2 <;> simp [h.lock, h.idx, h.done, thr]

theorem seen_out {g : Counter.Cfg} {k : Nat} {x : Worker} (h : ∀ a p, x ≠ .inside k a p) (pc : Counter.PC) : Seen g k x pc ↔ Out pc := by
  cases x with
  | inside k' a p =>
    simp only [Seen]
    rw [if_neg (fun e => h a p (by rw [e]))]
  | _ => rfl

theorem step_worker {s : St} {r : Callers.St} {own : Nat → Option (Nat × Job)} (h : Sim s r own) (w : Nat)
    (hu : Undisturbed s (.worker w)) : Follows s (.worker w) r := by
  by_cases w0 : w = 0
  · refine ⟨own, .inr ?_⟩; simp only [step, Act.same, Callers.step, w0, if_true]; exact h
  cases hw : s.worker w with
  | top =>
    refine ⟨own, .inr ?_⟩
    simp only [Act.same, Callers.step, step, if_neg w0, hw, wrk, h.idx, h.worker w]
    have := sim_place h w (.cmp s.poolIdx) (by rw [hw]; intro g k pc; exact id) (by simp) (by
      intro wi e; cases e; exact h.le) (by simp)
    convert this using 2 <;> simp [h.idx, wrk]
  | cmp wi =>
    refine ⟨own, .inr ?_⟩
    simp only [Act.same, Callers.step, step, if_neg w0, hw, wrk, h.done, h.worker w]
    have hle := h.cmp w wi hw
    have := sim_place h w (if wi > s.poolDone then .look else .top) (by rw [hw]; intro g k pc; split <;> exact id)
      (by intro k arg pc; split <;> simp) (by intro wi; split <;> simp) (by split <;> simp; omega)
    convert this using 2
    · exact h.done.symm
    · congr 1; split <;> rfl
  | look =>
    have hm := h.look w hw
    rcases h.newest hm with ⟨t, ht⟩ | ⟨j, ho⟩
    · exact absurd ht (hu hw t)
    · obtain ⟨hk, st, a1, a2, a3, _⟩ := h.live _ _ _ ho
      have e1 : s.main % Callers.RING = s.main % RING := rfl
      have e2 : (r.slot (s.main % RING)).wakeup = (s.slot (s.main % RING)).wakeup := by
        rw [a1, a2.wakeup]; rfl
      refine ⟨own, .inr ?_⟩
      simp only [Act.same, Callers.step, step, if_neg w0, hw, wrk, h.main, h.worker w]
      rw [e1, e2]
      by_cases hle : w ≤ (s.slot (s.main % RING)).wakeup
      · rw [if_pos hle, if_pos hle, a1]
        have hout := a3 w w0
        rw [hw] at hout
        have hout : Out (st.pc w) := hout
        have hlive : ∀ st' : Counter.St, st'.completed = st.completed → st'.next = st.next → Live (s.slot (s.main % RING)) st' s.main j :=
          fun st' q1 q2 => ⟨a2.arg, a2.wakeup, a2.blockLast, by rw [q1]; exact a2.completed, by rw [q2]; exact a2.next⟩
        have := sim_work h w (s.main % RING) s.main j .enter ho w0 st (Counter.step j.cfg st (.wake w)) a1 (s.slot (s.main % RING))
          (.inside (s.main % RING) 0 .enter)
          (by simp only [Counter.step]; split <;> exact hlive _ rfl rfl)
          (by
            simp only [Seen, if_true, At, Counter.step]
            rcases hout with e | e | e
            · rw [if_neg (by simp [e])]; exact .inl e
            · rw [if_pos ⟨e, w0⟩]; simp [upd_same]
            · rw [if_neg (by simp [e])]; exact .inr e)
          (by intro c' hc'; simp only [Counter.step]; split
              · simp only [upd_ne _ _ hc']
              · rfl)
          (by simp only [Counter.step]; split <;> rfl)
          (by
            intro g k' p hk' hs
            rw [hw] at hs
            exact (seen_out (by intro a q e; cases e; exact hk' rfl) p).2 hs)
          (.inl ⟨0, .enter, rfl, by rw [← a2.wakeup]; exact hle, by simp, by simp, by simp⟩)
        rw [upd_self] at this
        convert this using 2
        · rfl
        · exact h.main.symm
        · rfl
        · rfl
      · rw [if_neg hle, if_neg hle]
        have := sim_place h w .top (by rw [hw]; intro g k pc; exact id) (by simp) (by simp) (by simp)
        convert this using 2
        · exact h.main.symm
        · rfl
  | inside k arg pc =>
    obtain ⟨i, j, ho, hwk, harg, hn1, hn2⟩ := h.inside w k arg pc hw
    obtain ⟨hk, st, a1, a2, a3, _⟩ := h.live _ _ _ ho
    have hp := a3 w w0
    rw [hw] at hp
    simp only [Seen, if_true] at hp
    have hwu : ¬ j.cfg.wakeup < w := by show ¬ j.wakeup < w; omega
    have hpl : ∀ x : Worker, (∀ k' a p, k' ≠ k → x ≠ .inside k' a p) → ∀ g k' p, k' ≠ k → Seen g k' (s.worker w) p → Seen g k' x p := by
      intro x hx g k' p hk' hs
      rw [hw] at hs
      exact (seen_out (fun a q => hx k' a q hk') p).2 ((seen_out (by intro a q e; cases e; exact hk' rfl) p).1 hs)
    have other : (∀ d, pc ≠ .ret d) → pc ≠ .enter → step s (.worker w) = { s with slot := upd s.slot k (go (s.slot k) 0 pc).1, worker := upd s.worker w (.inside k arg (go (s.slot k) 0 pc).2), runs := ran arg pc ++ s.runs } → Follows s (.worker w) r := by
      intro n1 n2 hst
      have hag := harg n2
      subst hag
      obtain ⟨st', gs, g1, g2, g4, g5⟩ := go_sim a2 w 0 hwk (fun e => absurd e w0) pc hp n2 (fun _ => ⟨n1, hn1, hn2⟩)
      have hgo : (go (s.slot k) 0 pc).2 ≠ .wait ∧ (go (s.slot k) 0 pc).2 ≠ .returned := by
        cases pc <;> simp only [go] <;> (repeat' split) <;> simp_all
      have := sim_work h w k arg j pc ho w0 st st' a1 (go (s.slot k) 0 pc).1 (.inside k arg (go (s.slot k) 0 pc).2) g1
        (by simp only [Seen, if_true]; exact g2) g4 g5 (hpl _ (by intro k' a p hk' e; cases e; exact hk' rfl))
        (.inl ⟨arg, _, rfl, hwk, fun _ => rfl, hgo.1, hgo.2⟩)
      refine ⟨own, ?_⟩
      rw [hst]
      cases hm : moves pc with
      | false =>
        left
        refine ⟨⟨k, arg, .inr ?_⟩, ?_⟩
        · cases pc with
          | test n d => exact ⟨n, d, hw⟩
          | _ => cases hm
        rw [hm] at gs
        simp only [Bool.false_eq_true, if_false] at gs
        rw [gs, ← a1, upd_self, show wrk (.inside k arg (go (s.slot k) 0 pc).2) = r.worker w by rw [h.worker w, hw]; rfl, upd_self] at this
        exact this
      | true =>
        right
        rw [hm] at gs
        simp only [if_true] at gs
        have hlv : (Callers.Item.counter j.cfg st).leaving w = false := by
          simp only [Callers.Item.leaving]
          cases pc <;> simp only [At] at hp <;> first | (rw [hp]) | skip
          · exact absurd rfl n2
          · cases hm
          · exact absurd rfl (n1 _)
        simp only [Act.same, Callers.step, if_neg w0, h.worker w, hw, wrk]
        rw [a1, hlv]
        simp only [Bool.false_eq_true, if_false, Callers.Item.go]
        rw [← gs]
        exact this
    cases pc with
    | enter =>
      have hst : step s (.worker w) = { s with worker := upd s.worker w (.inside k (s.slot k).arg (.fetch false)) } := by
        simp only [step, if_neg w0, hw]
      have base : ∀ st' : Counter.St, st'.completed = st.completed → st'.next = st.next → st'.log = st.log → st'.pc w = .fetch false →
          (∀ c', c' ≠ w → st'.pc c' = st.pc c') →
          Sim { s with worker := upd s.worker w (.inside k (s.slot k).arg (.fetch false)) }
            { r with slot := upd r.slot k (.counter j.cfg st'), worker := upd r.worker w (.item k) } own := by
        intro st' q1 q2 q3 q4 q5
        have := sim_work h w k i j .enter ho w0 st st' a1 (s.slot k) (.inside k i (.fetch false))
          ⟨a2.arg, a2.wakeup, a2.blockLast, by rw [q1]; exact a2.completed, by rw [q2]; exact a2.next⟩
          (by simp only [Seen, if_true]; exact q4) q5 (by rw [q3]; rfl) (hpl _ (by intro k' a p hk' e; cases e; exact hk' rfl))
          (.inl ⟨i, _, rfl, hwk, fun _ => rfl, by simp, by simp⟩)
        rw [upd_self] at this
        rw [a2.arg]
        exact this
      have hp : st.pc w = .idle ∨ st.pc w = .fetch false := hp
      rcases hp with e | e
      · refine ⟨own, .inr ?_⟩
        rw [hst]
        simp only [Act.same, Callers.step, if_neg w0, h.worker w, hw, wrk]
        rw [a1]
        simp only [Callers.Item.leaving, e, Bool.false_eq_true, if_false, Callers.Item.go]
        apply base
        · simp only [Counter.step, if_neg hwu, e]
        · simp only [Counter.step, if_neg hwu, e]
        · simp only [Counter.step, if_neg hwu, e]
        · simp only [Counter.step, if_neg hwu, e, upd_same]
        · intro c' hc'; simp only [Counter.step, if_neg hwu, e, upd_ne _ _ hc']
      · refine ⟨own, .inl ⟨⟨k, arg, .inl hw⟩, ?_⟩⟩
        rw [hst]
        have := base st rfl rfl rfl e (fun _ _ => rfl)
        rw [← a1, upd_self, show Callers.Worker.item k = r.worker w by rw [h.worker w, hw]; rfl, upd_self] at this
        exact this
    | ret d =>
      have hp : st.pc w = .ret d := hp
      refine ⟨own, .inr ?_⟩
      simp only [step, Act.same, Callers.step, if_neg w0, h.worker w, hw, wrk]
      rw [a1]
      simp only [Callers.Item.leaving, hp, if_true, Callers.Item.go]
      have hstp : Counter.step j.cfg st (.go w) = { st with pc := upd st.pc w (if d then .fetch false else .asleep) } := by
        simp only [Counter.step, if_neg hwu, hp, if_neg w0]
      rw [hstp]
      have := sim_work h w k i j .enter ho w0 st { st with pc := upd st.pc w (if d then .fetch false else .asleep) } a1 (s.slot k) .top
        ⟨a2.arg, a2.wakeup, a2.blockLast, a2.completed, a2.next⟩
        (by simp only [Seen, upd_same]; cases d
            · exact .inr (.inl rfl)
            · exact .inr (.inr rfl))
        (by intro c' hc'; simp only [upd_ne _ _ hc']) rfl (hpl _ (by simp)) (.inr rfl)
      rw [upd_self] at this
      exact this
    | fetch d => exact other (by simp) (by simp) (by simp only [step, if_neg w0, hw])
    | test n d => exact other (by simp) (by simp) (by simp only [step, if_neg w0, hw])
    | run b => exact other (by simp) (by simp) (by simp only [step, if_neg w0, hw])
    | complete b => exact other (by simp) (by simp) (by simp only [step, if_neg w0, hw])
    | wait => exact absurd rfl hn1
    | returned => exact absurd rfl hn2

theorem sim_step {s : St} {r : Callers.St} {own : Nat → Option (Nat × Job)} (h : Sim s r own) (inv : Callers.Inv False r) (a : Act)
    (hu : Undisturbed s a) (hc : Calm s) (hc' : Calm (step s a)) : Follows s a r := by
  cases a with
  | start t j => exact step_start h t j
  | thread t => exact step_thread h inv t hu hc hc'
  | worker w => exact step_worker h w hu

theorem Sim.calm {s : St} {r : Callers.St} {own : Nat → Option (Nat × Job)} (h : Sim s r own) (hc : Calm s) : Callers.Calm r := by
  intro t i e
  rw [h.thread, thr_idx] at e
  rw [h.main]; exact hc t i e

theorem exec_snoc (mem : Nat → Slot) (l : List Act) (a : Act) : exec mem (l ++ [a]) = step (exec mem l) a := by
  simp [exec, List.foldl_append]

theorem prefix_snoc {α : Type} {p l : List α} {a : α} (h : p <+: l ++ [a]) : p <+: l ∨ p = l ++ [a] := by
  rcases List.prefix_concat_iff.1 (by simpa using h) with h | h
  · exact .inr (by simpa using h)
  · exact .inl h

/-- Every quiet history stands for one in which items are written in one step. -/
theorem sim_exec (mem : Nat → Slot) (l : List Act) (hq : Quiet mem l) :
    ∃ l' own, Sim (exec mem l) (Callers.exec l') own ∧ Callers.CalmHistory l' := by
  induction l using List.reverseRecOn with
  | nil =>
    refine ⟨[], _, sim_init mem, ?_⟩
    intro p hp t i e
    rw [List.prefix_nil.1 hp] at e; cases e
  | append_singleton l a ih =>
    have pre : l <+: l ++ [a] := List.prefix_append _ _
    obtain ⟨l', own, h, hc⟩ := ih ⟨fun p b hp => hq.1 p b (hp.trans pre), fun p hp => hq.2 p (hp.trans pre)⟩
    have c1 := hq.2 l pre
    have c2 := hq.2 (l ++ [a]) (List.prefix_refl _)
    rw [exec_snoc] at c2 ⊢
    obtain ⟨own', ⟨_, h'⟩ | h'⟩ := sim_step h (Callers.inv_exec False l' fun c => c.elim) a (hq.1 l a (List.prefix_refl _)) c1 c2
    · exact ⟨l', own', h', hc⟩
    · refine ⟨l' ++ [a.same], own', by rw [Callers.exec_snoc]; exact h', ?_⟩
      intro p hp
      rcases prefix_snoc hp with hp | rfl
      · exact hc p hp
      · rw [Callers.exec_snoc]; exact h'.calm c2

/-! ### Infinite runs -/

open Classical in
/-- The step of the other model that a step stands for (`.worker 0`: none). -/
noncomputable def simAct (s : St) (r : Callers.St) (a : Act) : Callers.Act :=
  if ∃ own, Sim (step s a) (Callers.step r a.same) own then a.same else .worker 0

/-- The states of the other model along a run. -/
noncomputable def follow (mem : Nat → Slot) (σ : Nat → Act) : Nat → Callers.St
  | 0 => Callers.init
  | n + 1 => Callers.step (follow mem σ n) (simAct (states mem σ n) (follow mem σ n) (σ n))

/-- The run of the other model. -/
noncomputable def simRun (mem : Nat → Slot) (σ : Nat → Act) (n : Nat) : Callers.Act := simAct (states mem σ n) (follow mem σ n) (σ n)

theorem follow_states (mem : Nat → Slot) (σ : Nat → Act) (n : Nat) : Callers.states (simRun mem σ) n = follow mem σ n := by
  induction n with
  | zero => rfl
  | succ n ih => rw [Callers.states, ih]; rfl

theorem sim_states (mem : Nat → Slot) (σ : Nat → Act) (hq : QuietRun mem σ) (n : Nat) :
    (∃ own, Sim (states mem σ n) (follow mem σ n) own) ∧ Callers.Inv False (follow mem σ n) ∧
      (¬ Slow (states mem σ n) (σ n) → simRun mem σ n = (σ n).same) := by
  have next : ∀ n, (∃ own, Sim (states mem σ n) (follow mem σ n) own) → Callers.Inv False (follow mem σ n) →
      (∃ own, Sim (states mem σ (n + 1)) (follow mem σ (n + 1)) own) ∧ (¬ Slow (states mem σ n) (σ n) → simRun mem σ n = (σ n).same) := by
    intro n ⟨own, h⟩ inv
    have hf := sim_step h inv (σ n) (hq.1 n) (hq.2 n) (hq.2 (n + 1))
    by_cases e : ∃ own, Sim (step (states mem σ n) (σ n)) (Callers.step (follow mem σ n) (σ n).same) own
    · have ea : simAct (states mem σ n) (follow mem σ n) (σ n) = (σ n).same := by rw [simAct, if_pos e]
      exact ⟨by rw [states, follow, ea]; exact e, fun _ => ea⟩
    · have ea : simAct (states mem σ n) (follow mem σ n) (σ n) = .worker 0 := by rw [simAct, if_neg e]
      obtain ⟨own', ⟨hs, h'⟩ | h'⟩ := hf
      · exact ⟨⟨own', by rw [states, follow, ea]; exact h'⟩, fun hn => absurd hs hn⟩
      · exact absurd ⟨own', h'⟩ e
  have both : ∀ n, (∃ own, Sim (states mem σ n) (follow mem σ n) own) ∧ Callers.Inv False (follow mem σ n) := by
    intro n
    induction n with
    | zero => exact ⟨⟨_, sim_init mem⟩, Callers.inv_init _⟩
    | succ n ih => exact ⟨(next n ih.1 ih.2).1, Callers.inv_step ih.2 _ fun c => c.elim⟩
  exact ⟨(both n).1, (both n).2, (next n (both n).1 (both n).2).2⟩

/-- Steps of others leave a thread that is not idle where it is. -/
theorem thread_other (s : St) (a : Act) (t : Nat) (ha : a ≠ .thread t) (hi : s.thread t ≠ .idle) : (step s a).thread t = s.thread t := by
  cases a with
  | start u j =>
    simp only [step]
    cases e : s.thread u with
    | idle =>
      have : t ≠ u := fun e' => by subst e'; exact hi e
      simp only [upd_ne _ _ this]
    | _ => rfl
  | thread u =>
    have hu : t ≠ u := fun e => ha (by rw [e])
    simp only [step]
    cases e : s.thread u with
    | fill i j todo => cases todo <;> simp only [upd_ne _ _ hu]
    | want j => simp only; split <;> simp only [upd_ne _ _ hu]
    | inCall i j arg pc => simp only; split <;> simp only [upd_ne _ _ hu]
    | _ => simp only [upd_ne _ _ hu]
  | worker w =>
    simp only [step]
    split
    · rfl
    · cases e : s.worker w with
      | inside k arg pc => simp only; (repeat' split) <;> rfl
      | _ => rfl

theorem worker_other (s : St) (a : Act) (w : Nat) (ha : a ≠ .worker w) : (step s a).worker w = s.worker w := by
  cases a with
  | start u j => simp only [step]; split <;> rfl
  | thread u => simp only [step]; (repeat' split) <;> rfl
  | worker v =>
    have hv : w ≠ v := fun e => ha (by rw [e])
    simp only [step]
    (repeat' split) <;> first | rfl | simp only [upd_ne _ _ hv]

theorem next_thread (mem : Nat → Slot) (σ : Nat → Act) (t : Nat) (hth : ∀ m, ∃ m', m ≤ m' ∧ σ m' = .thread t) (m : Nat)
    (hi : (states mem σ m).thread t ≠ .idle) : ∃ m', m ≤ m' ∧ σ m' = .thread t ∧ (states mem σ m').thread t = (states mem σ m).thread t := by
  obtain ⟨m', hle, he⟩ := hth m
  obtain ⟨d, rfl⟩ := Nat.exists_eq_add_of_le hle
  clear hle
  induction d generalizing m with
  | zero => exact ⟨m, Nat.le_refl _, he, rfl⟩
  | succ d ih =>
    by_cases e : σ m = .thread t
    · exact ⟨m, Nat.le_refl _, e, rfl⟩
    · have hk : (states mem σ (m + 1)).thread t = (states mem σ m).thread t := thread_other _ _ _ e hi
      obtain ⟨m', a, b, c⟩ := ih (m + 1) (by rw [hk]; exact hi) (by rw [Nat.add_right_comm, Nat.add_assoc]; exact he)
      exact ⟨m', by omega, b, by rw [c, hk]⟩

theorem next_worker (mem : Nat → Slot) (σ : Nat → Act) (w : Nat) (hw : ∀ m, ∃ m', m ≤ m' ∧ σ m' = .worker w) (m : Nat) :
    ∃ m', m ≤ m' ∧ σ m' = .worker w ∧ (states mem σ m').worker w = (states mem σ m).worker w := by
  obtain ⟨m', hle, he⟩ := hw m
  obtain ⟨d, rfl⟩ := Nat.exists_eq_add_of_le hle
  clear hle
  induction d generalizing m with
  | zero => exact ⟨m, Nat.le_refl _, he, rfl⟩
  | succ d ih =>
    by_cases e : σ m = .worker w
    · exact ⟨m, Nat.le_refl _, e, rfl⟩
    · have hk : (states mem σ (m + 1)).worker w = (states mem σ m).worker w := worker_other _ _ _ e
      obtain ⟨m', a, b, c⟩ := ih (m + 1) (by rw [Nat.add_right_comm, Nat.add_assoc]; exact he)
      exact ⟨m', by omega, b, by rw [c, hk]⟩

/-- A thread that keeps running keeps taking steps that count in the other model. -/
theorem thread_counts (mem : Nat → Slot) (σ : Nat → Act) (hq : QuietRun mem σ) (t : Nat) (hth : ∀ m, ∃ m', m ≤ m' ∧ σ m' = .thread t) (m : Nat) :
    ∃ m', m ≤ m' ∧ simRun mem σ m' = .thread t := by
  have counts : ∀ m, σ m = .thread t → ¬ Slow (states mem σ m) (.thread t) → simRun mem σ m = .thread t := fun m e h => by
    rw [(sim_states mem σ hq m).2.2 (by rw [e]; exact h), e]; rfl
  have fill : ∀ k m i j todo, todo.length = k → (states mem σ m).thread t = .fill i j todo →
      ∃ m', m ≤ m' ∧ simRun mem σ m' = .thread t := by
    intro k
    induction k with
    | zero =>
      intro m i j todo hl h
      obtain ⟨m', hle, he, hs⟩ := next_thread mem σ t hth m (by rw [h]; simp)
      refine ⟨m', hle, counts m' he ?_⟩
      obtain rfl := List.length_eq_zero_iff.1 hl
      simp [Slow, hs, h]
    | succ k ih =>
      intro m i j todo hl h
      obtain ⟨m', hle, he, hs⟩ := next_thread mem σ t hth m (by rw [h]; simp)
      match todo, hl with
      | [x], _ => exact ⟨m', hle, counts m' he (by simp [Slow, hs, h])⟩
      | x :: y :: rest, hl =>
        have : (states mem σ (m' + 1)).thread t = .fill i j (y :: rest) := by
          show (step (states mem σ m') (σ m')).thread t = _
          simp only [he, step, hs, h, upd_same, List.isEmpty_cons, Bool.false_eq_true, if_false]
        obtain ⟨m2, h2, h3⟩ := ih (m' + 1) i j (y :: rest) (by simpa using hl) this
        exact ⟨m2, by omega, h3⟩
  obtain ⟨m1, hle, he⟩ := hth m
  by_cases hs : Slow (states mem σ m1) (.thread t)
  · rcases hs with ⟨i, j, x, y, todo, h⟩ | ⟨i, j, arg, k, d, h⟩
    · obtain ⟨m2, h2, h3⟩ := fill _ m1 i j _ rfl h
      exact ⟨m2, by omega, h3⟩
    · have h1 : ∃ pc, (states mem σ (m1 + 1)).thread t = .inCall i j arg pc ∧ ∀ k d, pc ≠ .test k d := by
        refine ⟨(go ((states mem σ m1).slot (i % RING)) j.n (.test k d)).2, ?_, ?_⟩
        · show (step (states mem σ m1) (σ m1)).thread t = _
          simp only [he, step, h, upd_same]
          rw [if_neg (by simp)]
          simp only [upd_same]
        · simp only [go]; intro k d; (repeat' split) <;> simp
      obtain ⟨pc, h1, h2⟩ := h1
      obtain ⟨m', hle', he', hs'⟩ := next_thread mem σ t hth (m1 + 1) (by rw [h1]; simp)
      refine ⟨m', by omega, counts m' he' ?_⟩
      rw [h1] at hs'
      rintro (⟨_, _, _, _, _, e⟩ | ⟨_, _, _, _, _, e⟩) <;> rw [hs'] at e
      · cases e
      · injection e with _ _ _ e; exact h2 _ _ e
  · exact ⟨m1, hle, counts m1 he hs⟩

/-- The same for a worker. -/
theorem worker_counts (mem : Nat → Slot) (σ : Nat → Act) (hq : QuietRun mem σ) (w : Nat) (w0 : w ≠ 0) (hw : ∀ m, ∃ m', m ≤ m' ∧ σ m' = .worker w) (m : Nat) :
    ∃ m', m ≤ m' ∧ simRun mem σ m' = .worker w := by
  have counts : ∀ m, σ m = .worker w → ¬ Slow (states mem σ m) (.worker w) → simRun mem σ m = .worker w := fun m e h => by
    rw [(sim_states mem σ hq m).2.2 (by rw [e]; exact h), e]; rfl
  obtain ⟨m1, hle, he⟩ := hw m
  by_cases hs : Slow (states mem σ m1) (.worker w)
  · have h1 : ∃ k arg pc, (states mem σ (m1 + 1)).worker w = .inside k arg pc ∧ pc ≠ .enter ∧ ∀ k d, pc ≠ .test k d := by
      obtain ⟨k, arg, h | ⟨n, d, h⟩⟩ := hs
      · refine ⟨k, ((states mem σ m1).slot k).arg, .fetch false, ?_, by simp, by simp⟩
        show (step (states mem σ m1) (σ m1)).worker w = _
        simp only [he, step, if_neg w0, h, upd_same]
      · refine ⟨k, arg, (go ((states mem σ m1).slot k) 0 (.test n d)).2, ?_, ?_, ?_⟩
        · show (step (states mem σ m1) (σ m1)).worker w = _
          simp only [he, step, if_neg w0, h, upd_same]
        · simp only [go]; (repeat' split) <;> simp
        · simp only [go]; intro k d; (repeat' split) <;> simp
    obtain ⟨k, arg, pc, h1, h2, h3⟩ := h1
    obtain ⟨m', hle', he', hs'⟩ := next_worker mem σ w hw (m1 + 1)
    refine ⟨m', by omega, counts m' he' ?_⟩
    rw [h1] at hs'
    rintro ⟨_, _, e | ⟨_, _, e⟩⟩ <;> rw [hs'] at e
    · injection e with _ _ e; exact h2 e
    · injection e with _ _ e; exact h3 _ _ e
  · exact ⟨m1, hle, counts m1 he hs⟩

end Pnumpy.FillTasks
