import Verif.Spec.Fill
import Verif.Proofs.Callers
import Mathlib.Tactic.Convert
/-
Simulation of `Verif.Model.Fill` by `Verif.Model.Callers` (items written in one step) for undisturbed histories.
-/
namespace Pnumpy.Fill
open Pnumpy.Work (upd CHUNK MASK)
open Pnumpy.Callers (upd_same upd_ne)

/-- The slot holds the item of call `i`, and its counters are those of `st`. -/
structure Live (sl : Slot) (st : Work.St) (i : Nat) (j : Job) : Prop where
  zigzag : sl.zigzag = j.item.zigzag
  arg : sl.arg = i
  total : sl.total = j.item.total
  wakeup : sl.wakeup = j.item.wakeup
  blockLast : sl.blockLast = j.item.blockLast
  blockSize : sl.blockSize = j.item.blockSize
  completed : sl.completed = st.completed
  next : sl.next = st.blockNext
  cur : ∀ c, c ≤ j.item.wakeup → sl.cur c = st.cur c
  chan : ∀ c, c ≤ j.item.wakeup → sl.chanLast c = j.item.chanLast c

def pcMap : PC → Work.PC
  | .enter => .idle
  | .own => .own
  | .bump ch pos => .bump ch pos
  | .check => .check
  | .scan i => .scan i
  | .run b _ => .run b
  | .complete b => .complete b
  | .ret => .ret
  | .wait => .wait
  | .returned => .returned

/-- What the place of a thread says. -/
def PcOk (it : Work.Item) : PC → Prop
  | .bump ch _ => ch ≤ it.wakeup
  | .run b len => len = it.blockLen b
  | _ => True

theorem blockLen_pos (j : Job) (b : Nat) : j.item.blockLen b ≠ 0 := by
  simp only [Work.Item.blockLen]
  split
  · split
    · assumption
    · show CHUNK ≠ 0; decide
  · show CHUNK ≠ 0; decide

theorem Live.logical {sl : Slot} {st : Work.St} {i : Nat} {j : Job} (h : Live sl st i j) (ch pos : Nat) (hc : ch ≤ j.item.wakeup) :
    sl.logical ch pos = j.item.logical ch pos := by
  simp only [Slot.logical, Work.Item.logical, Work.Item.threads, h.zigzag, h.wakeup, h.chan ch hc]

theorem Live.blockLen {sl : Slot} {st : Work.St} {i : Nat} {j : Job} (h : Live sl st i j) (b : Nat) :
    sl.blockLen b = j.item.blockLen b := by
  simp only [Slot.blockLen, Work.Item.blockLen, h.blockLast, h.total, h.blockSize]

theorem claim_sim {sl : Slot} {st : Work.St} {i : Nat} {j : Job} (h : Live sl st i j) (c ch : Nat) (hc : ch ≤ j.item.wakeup) (fail : PC)
    (hf : PcOk j.item fail) :
    Live (claim sl ch fail).1 (Work.tryClaim j.item st c ch (pcMap fail)) i j ∧
    (Work.tryClaim j.item st c ch (pcMap fail)).pc c = pcMap (claim sl ch fail).2 ∧ PcOk j.item (claim sl ch fail).2 := by
  refine ⟨?_, ?_, ?_⟩
  · constructor <;> simp only [claim, Work.tryClaim]
    · exact h.zigzag
    · exact h.arg
    · exact h.total
    · exact h.wakeup
    · exact h.blockLast
    · exact h.blockSize
    · exact h.completed
    · exact h.next
    · intro c' hc'
      by_cases e : c' = ch
      · subst e; simp only [upd_same, h.cur c' hc]
      · simp only [upd_ne _ _ e]; exact h.cur c' hc'
    · exact h.chan
  · simp only [claim, Work.tryClaim, upd_same, h.cur ch hc, h.chan ch hc]
    split <;> rfl
  · simp only [claim]; split
    · exact hc
    · exact hf

theorem go_sim {sl : Slot} {st : Work.St} {i : Nat} {j : Job} (h : Live sl st i j) (c : Nat) (hc : c ≤ j.item.wakeup) (pc : PC)
    (hp : st.pc c = pcMap pc) (hok : PcOk j.item pc) (h0 : c ≠ 0 → pc ≠ .ret ∧ pc ≠ .wait ∧ pc ≠ .returned) :
    Live (go sl c pc).1 (Work.step j.item st c) i j ∧ (Work.step j.item st c).pc c = pcMap (go sl c pc).2 ∧
    PcOk j.item (go sl c pc).2 ∧ (∀ c', c' ≠ c → (Work.step j.item st c).pc c' = st.pc c') ∧
    Work.kernelCalls j.item (Work.step j.item st c) = (ran sl i pc).map (fun r => (r.start, r.len)) ++ Work.kernelCalls j.item st := by
  have hw : ¬ j.item.wakeup < c := by omega
  have live' : ∀ {st' : Work.St}, st'.cur = st.cur → st'.completed = st.completed → st'.blockNext = st.blockNext → Live sl st' i j := by
    intro st' e1 e2 e3
    exact ⟨h.zigzag, h.arg, h.total, h.wakeup, h.blockLast, h.blockSize, by rw [e2]; exact h.completed, by rw [e3]; exact h.next,
      by rw [e1]; exact h.cur, h.chan⟩
  cases pc with
  | enter =>
    simp only [Work.step, if_neg hw, hp, pcMap, go, ran]
    exact ⟨live' rfl rfl rfl, by simp only [upd_same], trivial, fun c' e => by simp only [upd_ne _ _ e], rfl⟩
  | own =>
    simp only [Work.step, if_neg hw, hp, pcMap, go, ran]
    have := claim_sim h c c hc .check trivial
    exact ⟨this.1, this.2.1, this.2.2, fun c' e => by simp only [Work.tryClaim, upd_ne _ _ e], rfl⟩
  | bump ch pos =>
    simp only [Work.step, if_neg hw, hp, pcMap, go, ran]
    have hl := h.logical ch pos hok
    have hb := h.blockLen (j.item.logical ch pos)
    rw [hl, hb, if_neg (blockLen_pos j _)]
    refine ⟨⟨h.zigzag, h.arg, h.total, h.wakeup, h.blockLast, h.blockSize, h.completed, ?_, h.cur, h.chan⟩, ?_, rfl,
      fun c' e => by simp only [upd_ne _ _ e], rfl⟩
    · show sl.next + 1 = st.blockNext + 1; rw [h.next]
    · simp only [upd_same]
  | check =>
    simp only [Work.step, if_neg hw, hp, pcMap, go, ran]
    refine ⟨live' rfl rfl rfl, ?_, ?_, fun c' e => by simp only [upd_ne _ _ e], rfl⟩
    · simp only [upd_same, h.blockLast, h.next]; split <;> rfl
    · split <;> trivial
  | scan n =>
    simp only [Work.step, if_neg hw, hp, pcMap, go, ran, h.wakeup]
    split
    · exact ⟨live' rfl rfl rfl, by simp only [upd_same], trivial, fun c' e => by simp only [upd_ne _ _ e], rfl⟩
    · split
      · exact ⟨live' rfl rfl rfl, by simp only [upd_same], trivial, fun c' e => by simp only [upd_ne _ _ e], rfl⟩
      · have := claim_sim h c n (by omega) (.scan (n + 1)) trivial
        exact ⟨this.1, this.2.1, this.2.2, fun c' e => by simp only [Work.tryClaim, upd_ne _ _ e], rfl⟩
  | run b len =>
    simp only [Work.step, if_neg hw, hp, pcMap, go, ran]
    refine ⟨live' rfl rfl rfl, by simp only [upd_same], trivial, fun c' e => by simp only [upd_ne _ _ e], ?_⟩
    have : len = j.item.blockLen b := hok
    simp [Work.kernelCalls, h.blockSize, this]
  | complete b =>
    simp only [Work.step, if_neg hw, hp, pcMap, go, ran]
    refine ⟨⟨h.zigzag, h.arg, h.total, h.wakeup, h.blockLast, h.blockSize, ?_, h.next, h.cur, h.chan⟩, by simp only [upd_same], trivial,
      fun c' e => by simp only [upd_ne _ _ e], rfl⟩
    show sl.completed + 1 = st.completed + 1; rw [h.completed]
  | ret =>
    have c0 : c = 0 := Classical.byContradiction fun e => (h0 e).1 rfl
    subst c0
    simp only [Work.step, if_neg hw, hp, pcMap, go, ran]
    exact ⟨live' rfl rfl rfl, by simp only [upd_same, if_true], trivial, fun c' e => by simp only [upd_ne _ _ e], rfl⟩
  | wait =>
    simp only [Work.step, if_neg hw, hp, pcMap, go, ran, h.completed, h.blockLast]
    split
    · exact ⟨live' rfl rfl rfl, by first | trivial | (rw [hp]; rfl), trivial, fun _ _ => rfl, rfl⟩
    · exact ⟨live' rfl rfl rfl, by simp only [upd_same], trivial, fun c' e => by simp only [upd_ne _ _ e], rfl⟩
  | returned =>
    simp only [Work.step, if_neg hw, hp, pcMap, go, ran]
    exact ⟨live' rfl rfl rfl, by first | trivial | (rw [hp]; rfl), trivial, fun _ _ => by first | rfl | trivial, rfl⟩

/-! ### Writing an item -/

theorem foldl_chan (it : Work.Item) (n : Nat) (sl : Slot) :
    let r := ((List.range n).flatMap fun c => [Store.cur c, .chanLast c (it.chanLast c)]).foldl Slot.put sl
    r.zigzag = sl.zigzag ∧ r.arg = sl.arg ∧ r.total = sl.total ∧ r.wakeup = sl.wakeup ∧ r.blockLast = sl.blockLast ∧
    r.completed = sl.completed ∧ r.next = sl.next ∧ r.blockSize = sl.blockSize ∧
    (∀ c, c < n → r.cur c = 0 ∧ r.chanLast c = it.chanLast c) := by
  induction n with
  | zero => simp
  | succ n ih =>
    intro r
    obtain ⟨a1, a2, a3, a4, a5, a6, a7, a8, a9⟩ := ih
    have e : r = ((((List.range n).flatMap fun c => [Store.cur c, .chanLast c (it.chanLast c)]).foldl Slot.put sl).put (.cur n)).put
        (.chanLast n (it.chanLast n)) := by
      simp only [r, List.range_succ, List.flatMap_append, List.foldl_append, List.flatMap_cons, List.flatMap_nil, List.append_nil]
      rfl
    rw [e]
    refine ⟨a1, a2, a3, a4, a5, a6, a7, a8, fun c hc => ?_⟩
    simp only [Slot.put]
    by_cases h : c = n
    · subst h; simp only [upd_same, and_self]
    · simp only [upd_ne _ _ h]; exact a9 c (by omega)

theorem stores_live (i : Nat) (j : Job) (sl : Slot) (hz : sl.zigzag = j.item.zigzag) : Live ((stores i j).foldl Slot.put sl) Work.init i j := by
  simp only [stores, List.foldl_append, chanStores]
  have := foldl_chan j.item (j.item.wakeup + 1)
    (List.foldl Slot.put sl [.arg i, .total j.item.total, .wakeup j.item.wakeup, .blockLast j.item.blockLast, .completed, .next, .blockSize j.item.blockSize])
  obtain ⟨a1, a2, a3, a4, a5, a6, a7, a8, a9⟩ := this
  exact ⟨a1.trans hz, a2.trans rfl, a3.trans rfl, a4.trans rfl, a5.trans rfl, a8.trans rfl, a6.trans rfl, a7.trans rfl,
    fun c hc => (a9 c (by omega)).1, fun c hc => (a9 c (by omega)).2⟩

theorem stores_ne (i : Nat) (j : Job) : stores i j ≠ [] := by simp [stores]

/-! ### The simulation -/

def Job.callers (j : Job) : Callers.Job := .ufunc j.item

def thr : Thread → Callers.Thread
  | .idle => .idle
  | .want j => .want j.callers
  | .take j => .take true j.callers
  | .zig i j => .got true i j.callers
  | .unlock i j => .got true i j.callers
  | .fill i j _ => .fill i j.callers
  | .publish i j => .publish i j.callers
  | .inCall i j _ _ => .inCall i j.callers
  | .finish i j => .finish i j.callers
  | .serial j => .serial j.callers

def wrk : Worker → Callers.Worker
  | .top => .top
  | .cmp wi => .cmp wi
  | .look => .look
  | .inside k _ _ => .item k

/-- The step of the other model that a step stands for (`.worker 0` does nothing). -/
def simAct (s : St) : Act → Callers.Act
  | .start t j => .start t true j.callers
  | .thread t => match s.thread t with
    | .zig _ _ => .worker 0
    | .fill _ _ (_ :: _ :: _) => .worker 0
    | _ => .thread t
  | .worker w => .worker w

/-- The place of worker `w` in slot `k`. -/
def placeIn (k : Nat) : Worker → PC
  | .inside k' _ pc => if k' = k then pc else .enter
  | _ => .enter

structure Sim (s : St) (r : Callers.St) (own : Nat → Option (Nat × Job)) : Prop where
  lock : r.lock = s.lock
  main : r.main = s.main
  idx : r.poolIdx = s.poolIdx
  done : r.poolDone = s.poolDone
  thread : ∀ t, r.thread t = thr (s.thread t)
  worker : ∀ w, r.worker w = wrk (s.worker w)
  live : ∀ k i j, own k = some (i, j) → i % RING = k ∧ ∃ st, r.slot k = .ufunc j.item st ∧ Live (s.slot k) st i j ∧
    (∀ w, w ≠ 0 → st.pc w = pcMap (placeIn k (s.worker w)) ∧ PcOk j.item (placeIn k (s.worker w))) ∧
    s.calls i = Work.kernelCalls j.item st ∧
    (∀ t j' arg pc, s.thread t = .inCall i j' arg pc → st.pc 0 = pcMap pc ∧ PcOk j.item pc) ∧
    (∀ t j', s.thread t = .publish i j' → st.pc 0 = .own)
  inside : ∀ w k arg pc, s.worker w = .inside k arg pc → ∃ i j, own k = some (i, j) ∧ w ≤ j.item.wakeup ∧ (pc ≠ .enter → arg = i) ∧
    pc ≠ .wait ∧ pc ≠ .returned
  call : ∀ t i j arg pc, s.thread t = .inCall i j arg pc → own (i % RING) = some (i, j) ∧ arg = i ∧ pc ≠ .enter
  pub : ∀ t i j, s.thread t = .publish i j → own (i % RING) = some (i, j)
  fin : ∀ t i j, s.thread t = .finish i j → own (i % RING) = some (i, j)
  writing : ∀ t i, (s.thread t).writing = some i → own (i % RING) = none ∧ s.calls i = []
  unlock : ∀ t i j, s.thread t = .unlock i j → (s.slot (i % RING)).zigzag = j.item.zigzag
  fill : ∀ t i j todo, s.thread t = .fill i j todo → todo ≠ [] ∧ Live (todo.foldl Slot.put (s.slot (i % RING))) Work.init i j
  future : ∀ i, s.main < i → s.calls i = []
  newest : 0 < s.main → (∃ t, (s.thread t).writing = some s.main) ∨ ∃ j, own (s.main % RING) = some (s.main, j)
  ownle : ∀ k i j, own k = some (i, j) → i ≤ s.main
  le : s.poolIdx ≤ s.main
  cmp : ∀ w wi, s.worker w = .cmp wi → wi ≤ s.main
  look : ∀ w, s.worker w = .look → 0 < s.main

theorem thr_idx (x : Thread) : (thr x).idx = x.idx := by cases x <;> rfl

theorem writing_idx {x : Thread} {i : Nat} (h : x.writing = some i) : x.idx = some i := by
  cases x <;> simp_all [Thread.writing, Thread.idx]

theorem sim_init (mem : Nat → Slot) : Sim (init mem) Callers.init (fun _ => none) := by
  constructor <;> intros <;> simp_all [init, Callers.init, thr, wrk, Thread.writing, St.calls]

/-- A step that changes only the place of one thread (and the lock or the pool's numbers). -/
theorem sim_thread {s : St} {r : Callers.St} {own : Nat → Option (Nat × Job)} (h : Sim s r own) (t : Nat) (x : Thread)
    (hw : x.writing = (s.thread t).writing) (hp : ∀ i j, x ≠ .publish i j) (hu : ∀ i j, x ≠ .unlock i j)
    (hf : ∀ i j todo, x = .fill i j todo → todo ≠ [] ∧ Live (todo.foldl Slot.put (s.slot (i % RING))) Work.init i j)
    (hc : ∀ i j arg pc, x = .inCall i j arg pc → own (i % RING) = some (i, j) ∧ arg = i ∧ pc ≠ .enter ∧
      ∀ st, r.slot (i % RING) = .ufunc j.item st → st.pc 0 = pcMap pc ∧ PcOk j.item pc)
    (hfi : ∀ i j, x = .finish i j → own (i % RING) = some (i, j)) (lk : Bool) (pi pd : Nat) (hpi : pi ≤ s.main) :
    Sim { s with lock := lk, poolIdx := pi, poolDone := pd, thread := upd s.thread t x }
      { r with lock := lk, poolIdx := pi, poolDone := pd, thread := upd r.thread t (thr x) } own where
  lock := rfl
  main := h.main
  idx := rfl
  done := rfl
  thread u := by
    by_cases e : u = t
    · subst e; simp only [upd_same]
    · simp only [upd_ne _ _ e]; exact h.thread u
  worker := h.worker
  live k i j ho := by
    obtain ⟨hk, st, a1, a2, a3, a4, a5, a6⟩ := h.live k i j ho
    refine ⟨hk, st, a1, a2, a3, a4, fun u j' arg pc hu' => ?_, fun u j' hu' => ?_⟩
    · by_cases e : u = t
      · subst e; simp only [upd_same] at hu'
        obtain ⟨b1, _, _, b4⟩ := hc _ _ _ _ hu'
        subst hk; rw [ho] at b1; cases b1
        exact b4 st a1
      · simp only [upd_ne _ _ e] at hu'; exact a5 u j' arg pc hu'
    · by_cases e : u = t
      · subst e; simp only [upd_same] at hu'; exact absurd hu' (hp _ _)
      · simp only [upd_ne _ _ e] at hu'; exact a6 u j' hu'
  inside := h.inside
  call u i j arg pc hu' := by
    by_cases e : u = t
    · subst e; simp only [upd_same] at hu'
      obtain ⟨b1, b2, b3, _⟩ := hc _ _ _ _ hu'; exact ⟨b1, b2, b3⟩
    · simp only [upd_ne _ _ e] at hu'; exact h.call u i j arg pc hu'
  pub u i j hu' := by
    by_cases e : u = t
    · subst e; simp only [upd_same] at hu'; exact absurd hu' (hp _ _)
    · simp only [upd_ne _ _ e] at hu'; exact h.pub u i j hu'
  fin u i j hu' := by
    by_cases e : u = t
    · subst e; simp only [upd_same] at hu'; exact hfi _ _ hu'
    · simp only [upd_ne _ _ e] at hu'; exact h.fin u i j hu'
  writing u i hu' := by
    by_cases e : u = t
    · subst e; simp only [upd_same, hw] at hu'; exact h.writing u i hu'
    · simp only [upd_ne _ _ e] at hu'; exact h.writing u i hu'
  unlock u i j hu' := by
    by_cases e : u = t
    · subst e; simp only [upd_same] at hu'; exact absurd hu' (hu _ _)
    · simp only [upd_ne _ _ e] at hu'; exact h.unlock u i j hu'
  fill u i j todo hu' := by
    by_cases e : u = t
    · subst e; simp only [upd_same] at hu'; exact hf _ _ _ hu'
    · simp only [upd_ne _ _ e] at hu'; exact h.fill u i j todo hu'
  future := h.future
  newest h0 := by
    rcases h.newest h0 with ⟨u, hu'⟩ | h1
    · left; refine ⟨u, ?_⟩
      by_cases e : u = t
      · subst e; simp only [upd_same, hw]; exact hu'
      · simp only [upd_ne _ _ e]; exact hu'
    · exact .inr h1
  ownle := h.ownle
  le := hpi
  cmp := h.cmp
  look := h.look

theorem sim_take {s : St} {r : Callers.St} {own : Nat → Option (Nat × Job)} (h : Sim s r own) (t : Nat) (j : Job) (ht : s.thread t = .take j)
    (hin : ∀ w k arg pc, s.worker w = .inside k arg pc → k ≠ (s.main + 1) % RING)
    (hth : ∀ u i, (s.thread u).idx = some i → i % RING ≠ (s.main + 1) % RING) :
    Sim { s with main := s.main + 1, thread := upd s.thread t (.zig (s.main + 1) j) }
      { r with main := r.main + 1, thread := upd r.thread t (thr (.zig (s.main + 1) j)) } (upd own ((s.main + 1) % RING) none) where
  lock := h.lock
  main := by simp only [h.main]
  idx := h.idx
  done := h.done
  thread u := by
    by_cases e : u = t
    · subst e; simp only [upd_same]
    · simp only [upd_ne _ _ e]; exact h.thread u
  worker := h.worker
  live k i j' ho := by
    by_cases e : k = (s.main + 1) % RING
    · subst e; rw [upd_same] at ho; cases ho
    · rw [upd_ne _ _ e] at ho
      obtain ⟨hk, st, a1, a2, a3, a4, a5, a6⟩ := h.live k i j' ho
      refine ⟨hk, st, a1, a2, a3, a4, fun u j'' arg pc hu' => ?_, fun u j'' hu' => ?_⟩
      · by_cases e : u = t
        · subst e; simp only [upd_same] at hu'; cases hu'
        · simp only [upd_ne _ _ e] at hu'; exact a5 u j'' arg pc hu'
      · by_cases e : u = t
        · subst e; simp only [upd_same] at hu'; cases hu'
        · simp only [upd_ne _ _ e] at hu'; exact a6 u j'' hu'
  inside w k arg pc hw := by
    have hk := hin w k arg pc hw
    rw [upd_ne _ _ hk]; exact h.inside w k arg pc hw
  call u i j' arg pc hu' := by
    by_cases e : u = t
    · subst e; simp only [upd_same] at hu'; cases hu'
    · simp only [upd_ne _ _ e] at hu'
      rw [upd_ne _ _ (hth u i (by rw [hu']; rfl))]; exact h.call u i j' arg pc hu'
  pub u i j' hu' := by
    by_cases e : u = t
    · subst e; simp only [upd_same] at hu'; cases hu'
    · simp only [upd_ne _ _ e] at hu'
      rw [upd_ne _ _ (hth u i (by rw [hu']; rfl))]; exact h.pub u i j' hu'
  fin u i j' hu' := by
    by_cases e : u = t
    · subst e; simp only [upd_same] at hu'; cases hu'
    · simp only [upd_ne _ _ e] at hu'
      rw [upd_ne _ _ (hth u i (by rw [hu']; rfl))]; exact h.fin u i j' hu'
  writing u i hu' := by
    by_cases e : u = t
    · subst e; simp only [upd_same, Thread.writing, Option.some.injEq] at hu'; subst hu'
      exact ⟨upd_same _ _ _, h.future _ (Nat.lt_succ_self _)⟩
    · simp only [upd_ne _ _ e] at hu'
      rw [upd_ne _ _ (hth u i (writing_idx hu'))]; exact h.writing u i hu'
  unlock u i j' hu' := by
    by_cases e : u = t
    · subst e; simp only [upd_same] at hu'; cases hu'
    · simp only [upd_ne _ _ e] at hu'; exact h.unlock u i j' hu'
  fill u i j' todo hu' := by
    by_cases e : u = t
    · subst e; simp only [upd_same] at hu'; cases hu'
    · simp only [upd_ne _ _ e] at hu'; exact h.fill u i j' todo hu'
  future i hi := h.future i (by have : s.main + 1 < i := hi; omega)
  newest _ := by left; exact ⟨t, by simp only [upd_same]; rfl⟩
  ownle k i j' ho := by
    by_cases e : k = (s.main + 1) % RING
    · subst e; rw [upd_same] at ho; cases ho
    · rw [upd_ne _ _ e] at ho; have := h.ownle k i j' ho; show i ≤ s.main + 1; omega
  le := by have := h.le; show s.poolIdx ≤ s.main + 1; omega
  cmp w wi hw := by have := h.cmp w wi hw; show wi ≤ s.main + 1; omega
  look w hw := Nat.succ_pos _

/-- A store into an item that is being written; the item is not complete afterwards. -/
theorem sim_store {s : St} {r : Callers.St} {own : Nat → Option (Nat × Job)} (h : Sim s r own) (t i : Nat) (st0 : Store) (x : Thread)
    (ht : (s.thread t).writing = some i) (hx : x.writing = some i) (hthr : thr x = thr (s.thread t))
    (hfill : ∀ i' j' todo, x = .fill i' j' todo → i' = i ∧ todo ≠ [] ∧ Live (todo.foldl Slot.put ((s.slot (i % RING)).put st0)) Work.init i j')
    (hunl : ∀ i' j', x = .unlock i' j' → i' = i ∧ ((s.slot (i % RING)).put st0).zigzag = j'.item.zigzag)
    (hth : ∀ u i', u ≠ t → (s.thread u).writing = some i' → i' % RING ≠ i % RING) :
    Sim { s with slot := upd s.slot (i % RING) ((s.slot (i % RING)).put st0), thread := upd s.thread t x } r own := by
  have hown := (h.writing t i ht).1
  have hne : ∀ k i' j', own k = some (i', j') → k ≠ i % RING := fun k i' j' e e' => by rw [e', hown] at e; cases e
  exact {
    lock := h.lock
    main := h.main
    idx := h.idx
    done := h.done
    thread := fun u => by
      by_cases e : u = t
      · subst e; simp only [upd_same, hthr]; exact h.thread u
      · simp only [upd_ne _ _ e]; exact h.thread u
    worker := h.worker
    live := fun k i' j' ho => by
      obtain ⟨hk, st, a1, a2, a3, a4, a5, a6⟩ := h.live k i' j' ho
      refine ⟨hk, st, a1, ?_, a3, a4, fun u j'' arg pc hu' => ?_, fun u j'' hu' => ?_⟩
      · simp only [upd_ne _ _ (hne k i' j' ho)]; exact a2
      · by_cases e : u = t
        · subst e; simp only [upd_same] at hu'; subst hu'; cases hx
        · simp only [upd_ne _ _ e] at hu'; exact a5 u j'' arg pc hu'
      · by_cases e : u = t
        · subst e; simp only [upd_same] at hu'; subst hu'; cases hx
        · simp only [upd_ne _ _ e] at hu'; exact a6 u j'' hu'
    inside := h.inside
    call := fun u i' j' arg pc hu' => by
      by_cases e : u = t
      · subst e; simp only [upd_same] at hu'; subst hu'; cases hx
      · simp only [upd_ne _ _ e] at hu'; exact h.call u i' j' arg pc hu'
    pub := fun u i' j' hu' => by
      by_cases e : u = t
      · subst e; simp only [upd_same] at hu'; subst hu'; cases hx
      · simp only [upd_ne _ _ e] at hu'; exact h.pub u i' j' hu'
    fin := fun u i' j' hu' => by
      by_cases e : u = t
      · subst e; simp only [upd_same] at hu'; subst hu'; cases hx
      · simp only [upd_ne _ _ e] at hu'; exact h.fin u i' j' hu'
    writing := fun u i' hu' => by
      by_cases e : u = t
      · subst e; simp only [upd_same, hx, Option.some.injEq] at hu'; subst hu'; exact h.writing u i ht
      · simp only [upd_ne _ _ e] at hu'; exact h.writing u i' hu'
    unlock := fun u i' j' hu' => by
      by_cases e : u = t
      · subst e; simp only [upd_same] at hu'
        obtain ⟨b1, b2⟩ := hunl _ _ hu'
        subst b1; simp only [upd_same]; exact b2
      · simp only [upd_ne _ _ e] at hu'
        simp only [upd_ne _ _ (hth u i' e (by rw [hu']; rfl))]; exact h.unlock u i' j' hu'
    fill := fun u i' j' todo hu' => by
      by_cases e : u = t
      · subst e; simp only [upd_same] at hu'
        obtain ⟨b1, b2, b3⟩ := hfill _ _ _ hu'
        subst b1; simp only [upd_same]; exact ⟨b2, b3⟩
      · simp only [upd_ne _ _ e] at hu'
        simp only [upd_ne _ _ (hth u i' e (by rw [hu']; rfl))]; exact h.fill u i' j' todo hu'
    future := h.future
    newest := fun h0 => by
      rcases h.newest h0 with ⟨u, hu'⟩ | h1
      · left; refine ⟨u, ?_⟩
        by_cases e : u = t
        · subst e; simp only [upd_same]; rw [hx, ← ht]; exact hu'
        · simp only [upd_ne _ _ e]; exact hu'
      · exact .inr h1
    ownle := h.ownle
    le := h.le
    cmp := h.cmp
    look := h.look }

/-- The last store. -/
theorem sim_last {s : St} {r : Callers.St} {own : Nat → Option (Nat × Job)} (h : Sim s r own) (t i : Nat) (j : Job) (x : Store)
    (ht : s.thread t = .fill i j [x]) (hi : i ≤ s.main)
    (hth : ∀ u i', u ≠ t → (s.thread u).idx = some i' → i' % RING ≠ i % RING) :
    Sim { s with slot := upd s.slot (i % RING) ((s.slot (i % RING)).put x), thread := upd s.thread t (.publish i j) }
      { r with slot := upd r.slot (i % RING) j.callers.fresh, thread := upd r.thread t (.publish i j.callers) }
      (upd own (i % RING) (some (i, j))) := by
  have hw : (s.thread t).writing = some i := by rw [ht]; rfl
  obtain ⟨hown, hcalls⟩ := h.writing t i hw
  have hlive : Live ((s.slot (i % RING)).put x) Work.init i j := (h.fill t i j [x] ht).2
  have hnone : ∀ w arg pc, s.worker w ≠ .inside (i % RING) arg pc := fun w arg pc e => by
    obtain ⟨i', j', e', _⟩ := h.inside w _ arg pc e; rw [hown] at e'; cases e'
  have hne : ∀ k i' j', own k = some (i', j') → k ≠ i % RING := fun k i' j' e e' => by rw [e', hown] at e; cases e
  exact {
    lock := h.lock
    main := h.main
    idx := h.idx
    done := h.done
    thread := fun u => by
      by_cases e : u = t
      · subst e; simp only [upd_same]; rfl
      · simp only [upd_ne _ _ e]; exact h.thread u
    worker := h.worker
    live := fun k i' j' ho => by
      by_cases ek : k = i % RING
      · subst ek; rw [upd_same] at ho; cases ho
        refine ⟨rfl, Work.init, by simp only [upd_same]; rfl, by simp only [upd_same]; exact hlive, fun w hw0 => ?_, by rw [show ({ s with
            slot := upd s.slot (i % RING) ((s.slot (i % RING)).put x), thread := upd s.thread t (.publish i j) } : St).calls i = s.calls i from rfl, hcalls]; rfl,
          fun u j'' arg pc hu' => ?_, fun u j'' hu' => ?_⟩
        · have : placeIn (i % RING) (s.worker w) = .enter := by
            cases e : s.worker w with
            | inside k arg pc =>
              simp only [placeIn]; split
              · rename_i e'; subst e'; exact absurd e (hnone w arg pc)
              · rfl
            | _ => rfl
          simp only [this, Work.init, if_neg hw0]; exact ⟨rfl, trivial⟩
        · by_cases e : u = t
          · subst e; simp only [upd_same] at hu'; cases hu'
          · simp only [upd_ne _ _ e] at hu'; exact absurd rfl (hth u i e (by rw [hu']; rfl))
        · rfl
      · rw [upd_ne _ _ ek] at ho
        obtain ⟨hk, st, a1, a2, a3, a4, a5, a6⟩ := h.live k i' j' ho
        refine ⟨hk, st, by simp only [upd_ne _ _ ek]; exact a1, by simp only [upd_ne _ _ ek]; exact a2, a3, a4, fun u j'' arg pc hu' => ?_, fun u j'' hu' => ?_⟩
        · by_cases e : u = t
          · subst e; simp only [upd_same] at hu'; cases hu'
          · simp only [upd_ne _ _ e] at hu'; exact a5 u j'' arg pc hu'
        · by_cases e : u = t
          · subst e; simp only [upd_same] at hu'; cases hu'; exact absurd hk.symm ek
          · simp only [upd_ne _ _ e] at hu'; exact a6 u j'' hu'
    inside := fun w k arg pc hw' => by
      have : k ≠ i % RING := fun e => by subst e; exact hnone w arg pc hw'
      rw [upd_ne _ _ this]; exact h.inside w k arg pc hw'
    call := fun u i' j' arg pc hu' => by
      by_cases e : u = t
      · subst e; simp only [upd_same] at hu'; cases hu'
      · simp only [upd_ne _ _ e] at hu'
        rw [upd_ne _ _ (hth u i' e (by rw [hu']; rfl))]; exact h.call u i' j' arg pc hu'
    pub := fun u i' j' hu' => by
      by_cases e : u = t
      · subst e; simp only [upd_same] at hu'; cases hu'; exact upd_same _ _ _
      · simp only [upd_ne _ _ e] at hu'
        rw [upd_ne _ _ (hth u i' e (by rw [hu']; rfl))]; exact h.pub u i' j' hu'
    fin := fun u i' j' hu' => by
      by_cases e : u = t
      · subst e; simp only [upd_same] at hu'; cases hu'
      · simp only [upd_ne _ _ e] at hu'
        rw [upd_ne _ _ (hth u i' e (by rw [hu']; rfl))]; exact h.fin u i' j' hu'
    writing := fun u i' hu' => by
      by_cases e : u = t
      · subst e; simp only [upd_same] at hu'; cases hu'
      · simp only [upd_ne _ _ e] at hu'
        rw [upd_ne _ _ (hth u i' e (writing_idx hu'))]; exact h.writing u i' hu'
    unlock := fun u i' j' hu' => by
      by_cases e : u = t
      · subst e; simp only [upd_same] at hu'; cases hu'
      · simp only [upd_ne _ _ e] at hu'
        simp only [upd_ne _ _ (hth u i' e (by rw [hu']; rfl))]; exact h.unlock u i' j' hu'
    fill := fun u i' j' todo hu' => by
      by_cases e : u = t
      · subst e; simp only [upd_same] at hu'; cases hu'
      · simp only [upd_ne _ _ e] at hu'
        simp only [upd_ne _ _ (hth u i' e (by rw [hu']; rfl))]; exact h.fill u i' j' todo hu'
    future := h.future
    newest := fun h0 => by
      rcases h.newest h0 with ⟨u, hu'⟩ | ⟨j', h1⟩
      · by_cases e : u = t
        · subst e; rw [hw] at hu'; cases hu'; right; exact ⟨j, upd_same _ _ _⟩
        · left; exact ⟨u, by simp only [upd_ne _ _ e]; exact hu'⟩
      · right; exact ⟨j', by rw [upd_ne _ _ (hne _ _ _ h1)]; exact h1⟩
    ownle := fun k i' j' ho => by
      by_cases ek : k = i % RING
      · subst ek; rw [upd_same] at ho; cases ho; exact hi
      · rw [upd_ne _ _ ek] at ho; exact h.ownle k i' j' ho
    le := h.le
    cmp := h.cmp
    look := h.look }

theorem calls_same (s : St) (sl : Slot) (i : Nat) (pc : PC) (f : St → St) (hf : (f s).runs = ran sl i pc ++ s.runs) :
    (f s).calls i = (ran sl i pc).map (fun r => (r.start, r.len)) ++ s.calls i := by
  simp only [St.calls, hf, List.filter_append, List.map_append]
  congr 1
  cases pc <;> simp [ran]

theorem calls_other (s : St) (sl : Slot) (i i' : Nat) (h : i' ≠ i) (pc : PC) (f : St → St) (hf : (f s).runs = ran sl i pc ++ s.runs) :
    (f s).calls i' = s.calls i' := by
  simp only [St.calls, hf, List.filter_append, List.map_append]
  have : (ran sl i pc).filter (fun r => r.call == i') = [] := by
    cases pc <;> simp [ran, Ne.symm h]
  rw [this]; rfl

/-- A step of the caller inside its item. -/
theorem sim_call {s : St} {r : Callers.St} {own : Nat → Option (Nat × Job)} (h : Sim s r own) (t i : Nat) (j : Job) (arg : Nat) (pc : PC)
    (ht : s.thread t = .inCall i j arg pc) (st : Work.St) (hst : r.slot (i % RING) = .ufunc j.item st)
    (hth : ∀ u i', u ≠ t → (s.thread u).idx = some i' → i' ≠ i) :
    Sim { s with slot := upd s.slot (i % RING) (go (s.slot (i % RING)) 0 pc).1,
                 thread := upd s.thread t (.inCall i j arg (go (s.slot (i % RING)) 0 pc).2),
                 runs := ran (s.slot (i % RING)) arg pc ++ s.runs }
      { r with slot := upd r.slot (i % RING) ((r.slot (i % RING)).go 0) } own := by
  obtain ⟨hown, rfl, hne⟩ := h.call t i j arg pc ht
  have hi := h.ownle _ _ _ hown
  obtain ⟨hk, st', a1, a2, a3, a4, a5, a6⟩ := h.live _ _ _ hown
  rw [hst] at a1
  obtain rfl : st = st' := by injection a1
  obtain ⟨p1, p2⟩ := a5 t j arg pc ht
  obtain ⟨g1, g2, g3, g4, g5⟩ := go_sim a2 0 (Nat.zero_le _) pc p1 p2 (fun e => absurd rfl e)
  have hoth : ∀ k i' j', own k = some (i', j') → k ≠ arg % RING → i' ≠ arg := fun k i' j' e ek e' => by
    subst e'; exact ek (h.live k _ _ e).1.symm
  have hgo : (go (s.slot (arg % RING)) 0 pc).2 ≠ .enter := by
    cases pc <;> simp only [go, claim] <;> (repeat' split) <;> simp_all
  exact {
    lock := h.lock
    main := h.main
    idx := h.idx
    done := h.done
    thread := fun u => by
      by_cases e : u = t
      · subst e; simp only [upd_same]; rw [h.thread u, ht]; rfl
      · simp only [upd_ne _ _ e]; exact h.thread u
    worker := h.worker
    live := fun k i' j' ho => by
      by_cases ek : k = arg % RING
      · subst ek; rw [hown] at ho; cases ho
        refine ⟨rfl, Work.step j.item st 0, by simp only [upd_same, hst]; rfl, by simp only [upd_same]; exact g1, fun w hw0 => ?_, ?_,
          fun u j'' arg' pc' hu' => ?_, fun u j'' hu' => ?_⟩
        · rw [g4 w hw0]; exact a3 w hw0
        · rw [g5, ← a4]; exact calls_same s _ arg pc (fun _ => _) rfl
        · by_cases e : u = t
          · subst e; simp only [upd_same] at hu'; cases hu'; exact ⟨g2, g3⟩
          · simp only [upd_ne _ _ e] at hu'; exact absurd rfl (hth u arg e (by rw [hu']; rfl))
        · by_cases e : u = t
          · subst e; simp only [upd_same] at hu'; cases hu'
          · simp only [upd_ne _ _ e] at hu'; exact absurd rfl (hth u arg e (by rw [hu']; rfl))
      · obtain ⟨hk', st2, b1, b2, b3, b4, b5, b6⟩ := h.live k i' j' ho
        refine ⟨hk', st2, by simp only [upd_ne _ _ ek]; exact b1, by simp only [upd_ne _ _ ek]; exact b2, b3, ?_, fun u j'' arg' pc' hu' => ?_, fun u j'' hu' => ?_⟩
        · rw [← b4]; exact calls_other s _ arg i' (hoth k i' j' ho ek) pc (fun _ => _) rfl
        · by_cases e : u = t
          · subst e; simp only [upd_same] at hu'; cases hu'; exact absurd rfl (hoth k _ j' ho ek)
          · simp only [upd_ne _ _ e] at hu'; exact b5 u j'' arg' pc' hu'
        · by_cases e : u = t
          · subst e; simp only [upd_same] at hu'; cases hu'
          · simp only [upd_ne _ _ e] at hu'; exact b6 u j'' hu'
    inside := h.inside
    call := fun u i' j' arg' pc' hu' => by
      by_cases e : u = t
      · subst e; simp only [upd_same] at hu'; cases hu'; exact ⟨hown, rfl, hgo⟩
      · simp only [upd_ne _ _ e] at hu'; exact h.call u i' j' arg' pc' hu'
    pub := fun u i' j' hu' => by
      by_cases e : u = t
      · subst e; simp only [upd_same] at hu'; cases hu'
      · simp only [upd_ne _ _ e] at hu'; exact h.pub u i' j' hu'
    fin := fun u i' j' hu' => by
      by_cases e : u = t
      · subst e; simp only [upd_same] at hu'; cases hu'
      · simp only [upd_ne _ _ e] at hu'; exact h.fin u i' j' hu'
    writing := fun u i' hu' => by
      by_cases e : u = t
      · subst e; simp only [upd_same] at hu'; cases hu'
      · simp only [upd_ne _ _ e] at hu'
        refine ⟨(h.writing u i' hu').1, ?_⟩
        rw [← (h.writing u i' hu').2]; exact calls_other s _ arg i' (hth u i' e (writing_idx hu')) pc (fun _ => _) rfl
    unlock := fun u i' j' hu' => by
      by_cases e : u = t
      · subst e; simp only [upd_same] at hu'; cases hu'
      · simp only [upd_ne _ _ e] at hu'
        have : i' % RING ≠ arg % RING := fun e' => by
          have := (h.writing u i' (by rw [hu']; rfl)).1; rw [e', hown] at this; cases this
        simp only [upd_ne _ _ this]; exact h.unlock u i' j' hu'
    fill := fun u i' j' todo hu' => by
      by_cases e : u = t
      · subst e; simp only [upd_same] at hu'; cases hu'
      · simp only [upd_ne _ _ e] at hu'
        have : i' % RING ≠ arg % RING := fun e' => by
          have := (h.writing u i' (by rw [hu']; rfl)).1; rw [e', hown] at this; cases this
        simp only [upd_ne _ _ this]; exact h.fill u i' j' todo hu'
    future := fun i' hi' => by
      have : s.main < i' := hi'
      rw [← h.future i' this]; exact calls_other s _ arg i' (by omega) pc (fun _ => _) rfl
    newest := fun h0 => by
      rcases h.newest h0 with ⟨u, hu'⟩ | h1
      · left; refine ⟨u, ?_⟩
        by_cases e : u = t
        · subst e; rw [ht] at hu'; cases hu'
        · simp only [upd_ne _ _ e]; exact hu'
      · exact .inr h1
    ownle := h.ownle
    le := h.le
    cmp := h.cmp
    look := h.look }

theorem upd_self {α : Type _} (f : Nat → α) (k : Nat) : upd f k (f k) = f := by
  funext x; by_cases e : x = k
  · subst e; rw [upd_same]
  · rw [upd_ne _ _ e]

/-- A worker changes its place outside of items, or goes into the newest item. -/
theorem sim_place {s : St} {r : Callers.St} {own : Nat → Option (Nat × Job)} (h : Sim s r own) (w : Nat) (x : Worker)
    (h1 : ∀ k, placeIn k (s.worker w) = .enter) (h2 : ∀ k, placeIn k x = .enter)
    (hin : ∀ k arg pc, x = .inside k arg pc → ∃ i j, own k = some (i, j) ∧ w ≤ j.item.wakeup ∧ pc = .enter)
    (hc : ∀ wi, x = .cmp wi → wi ≤ s.main) (hl : x = .look → 0 < s.main) :
    Sim { s with worker := upd s.worker w x } { r with worker := upd r.worker w (wrk x) } own where
  lock := h.lock
  main := h.main
  idx := h.idx
  done := h.done
  thread := h.thread
  worker u := by
    by_cases e : u = w
    · subst e; simp only [upd_same]
    · simp only [upd_ne _ _ e]; exact h.worker u
  live k i j ho := by
    obtain ⟨hk, st, a1, a2, a3, a4, a5, a6⟩ := h.live k i j ho
    refine ⟨hk, st, a1, a2, fun u hu => ?_, a4, a5, a6⟩
    by_cases e : u = w
    · subst e; simp only [upd_same]; have := a3 u hu; rw [h1] at this; rw [h2]; exact this
    · simp only [upd_ne _ _ e]; exact a3 u hu
  inside u k arg pc hu := by
    by_cases e : u = w
    · subst e; simp only [upd_same] at hu
      obtain ⟨i, j, b1, b2, b3⟩ := hin k arg pc hu
      exact ⟨i, j, b1, b2, fun e => absurd b3 e, by rw [b3]; simp, by rw [b3]; simp⟩
    · simp only [upd_ne _ _ e] at hu; exact h.inside u k arg pc hu
  call := h.call
  pub := h.pub
  fin := h.fin
  writing := h.writing
  unlock := h.unlock
  fill := h.fill
  future := h.future
  newest := h.newest
  ownle := h.ownle
  le := h.le
  cmp u wi hu := by
    by_cases e : u = w
    · subst e; simp only [upd_same] at hu; exact hc wi hu
    · simp only [upd_ne _ _ e] at hu; exact h.cmp u wi hu
  look u hu := by
    by_cases e : u = w
    · subst e; simp only [upd_same] at hu; exact hl hu
    · simp only [upd_ne _ _ e] at hu; exact h.look u hu

/-- A step of a worker inside an item; `x` is its new place. -/
theorem sim_work {s : St} {r : Callers.St} {own : Nat → Option (Nat × Job)} (h : Sim s r own) (w k arg i : Nat) (j : Job) (pc : PC)
    (hw : s.worker w = .inside k arg pc) (ho : own k = some (i, j)) (w0 : w ≠ 0) (st : Work.St) (hst : r.slot k = .ufunc j.item st)
    (sl : Slot) (x : Worker) (g1 : Live sl (Work.step j.item st w) i j)
    (g2 : (Work.step j.item st w).pc w = pcMap (placeIn k x)) (g3 : PcOk j.item (placeIn k x))
    (g4 : ∀ c', c' ≠ w → (Work.step j.item st w).pc c' = st.pc c') 
    (g5 : Work.kernelCalls j.item (Work.step j.item st w) = (ran (s.slot k) i pc).map (fun r => (r.start, r.len)) ++ Work.kernelCalls j.item st)
    (hx : (∃ pc', x = .inside k i pc' ∧ pc' ≠ .wait ∧ pc' ≠ .returned) ∨ x = .top) :
    Sim { s with slot := upd s.slot k sl, worker := upd s.worker w x, runs := ran (s.slot k) i pc ++ s.runs }
      { r with slot := upd r.slot k ((r.slot k).go w), worker := upd r.worker w (wrk x) } own := by
  have hi := h.ownle _ _ _ ho
  obtain ⟨hk, st', a1, a2, a3, a4, a5, a6⟩ := h.live _ _ _ ho
  rw [hst] at a1
  obtain rfl : st = st' := by injection a1
  have hoth : ∀ k' i' j', own k' = some (i', j') → k' ≠ k → i' ≠ i := fun k' i' j' e ek e' => by
    subst e'; exact ek ((h.live k' _ _ e).1.symm.trans hk)
  have hplace : ∀ k', k' ≠ k → placeIn k' (s.worker w) = .enter ∧ placeIn k' x = .enter := by
    intro k' e
    refine ⟨by rw [hw]; simp [placeIn, Ne.symm e], ?_⟩
    rcases hx with ⟨pc', rfl, _⟩ | rfl
    · simp [placeIn, Ne.symm e]
    · rfl
  exact {
    lock := h.lock
    main := h.main
    idx := h.idx
    done := h.done
    thread := h.thread
    worker := fun u => by
      by_cases e : u = w
      · subst e; simp only [upd_same]
      · simp only [upd_ne _ _ e]; exact h.worker u
    live := fun k' i' j' ho' => by
      by_cases ek : k' = k
      · subst ek; rw [ho] at ho'; cases ho'
        refine ⟨hk, Work.step j.item st w, by simp only [upd_same, hst]; rfl, by simp only [upd_same]; exact g1, fun u hu => ?_, ?_,
          fun u j'' arg' pc' hu' => ?_, fun u j'' hu' => ?_⟩
        · by_cases e : u = w
          · subst e; simp only [upd_same]; exact ⟨g2, g3⟩
          · simp only [upd_ne _ _ e]; rw [g4 u e]; exact a3 u hu
        · rw [g5, ← a4]; exact calls_same s _ i pc (fun _ => _) rfl
        · rw [g4 0 (Ne.symm w0)]; exact a5 u j'' arg' pc' hu'
        · rw [g4 0 (Ne.symm w0)]; exact a6 u j'' hu'
      · obtain ⟨hk', st2, b1, b2, b3, b4, b5, b6⟩ := h.live k' i' j' ho'
        refine ⟨hk', st2, by simp only [upd_ne _ _ ek]; exact b1, by simp only [upd_ne _ _ ek]; exact b2, fun u hu => ?_, ?_, b5, b6⟩
        · by_cases e : u = w
          · subst e; simp only [upd_same]; have := b3 u hu; rw [(hplace k' ek).1] at this; rw [(hplace k' ek).2]; exact this
          · simp only [upd_ne _ _ e]; exact b3 u hu
        · rw [← b4]; exact calls_other s _ i i' (hoth k' i' j' ho' ek) pc (fun _ => _) rfl
    inside := fun u k' arg' pc' hu => by
      by_cases e : u = w
      · subst e; simp only [upd_same] at hu
        obtain ⟨i0, j0, c1, c2, _⟩ := h.inside u k arg pc hw
        rw [ho] at c1; cases c1
        rcases hx with ⟨pc2, rfl, n1, n2⟩ | rfl
        · cases hu; exact ⟨i, j, ho, c2, fun _ => rfl, n1, n2⟩
        · cases hu
      · simp only [upd_ne _ _ e] at hu; exact h.inside u k' arg' pc' hu
    call := h.call
    pub := h.pub
    fin := h.fin
    writing := fun u i' hu' => by
      refine ⟨(h.writing u i' hu').1, ?_⟩
      have : i' ≠ i := fun e => by
        have := (h.writing u i' hu').1; rw [e, hk, ho] at this; cases this
      rw [← (h.writing u i' hu').2]; exact calls_other s _ i i' this pc (fun _ => _) rfl
    unlock := fun u i' j' hu' => by
      have : i' % RING ≠ k := fun e' => by
        have := (h.writing u i' (by rw [show s.thread u = _ from hu']; rfl)).1; rw [e', ho] at this; cases this
      simp only [upd_ne _ _ this]; exact h.unlock u i' j' hu'
    fill := fun u i' j' todo hu' => by
      have : i' % RING ≠ k := fun e' => by
        have := (h.writing u i' (by rw [show s.thread u = _ from hu']; rfl)).1; rw [e', ho] at this; cases this
      simp only [upd_ne _ _ this]; exact h.fill u i' j' todo hu'
    future := fun i' hi' => by
      have : s.main < i' := hi'
      rw [← h.future i' this]; exact calls_other s _ i i' (by omega) pc (fun _ => _) rfl
    newest := h.newest
    ownle := h.ownle
    le := h.le
    cmp := fun u wi hu => by
      by_cases e : u = w
      · subst e; simp only [upd_same] at hu; rcases hx with ⟨pc', rfl, _⟩ | rfl <;> cases hu
      · simp only [upd_ne _ _ e] at hu; exact h.cmp u wi hu
    look := fun u hu => by
      by_cases e : u = w
      · subst e; simp only [upd_same] at hu; rcases hx with ⟨pc', rfl, _⟩ | rfl <;> cases hu
      · simp only [upd_ne _ _ e] at hu; exact h.look u hu }

theorem mod_ne {i i' main : Nat} (h1 : i ≤ main) (h2 : i' ≤ main) (b1 : main < i + 1024) (b2 : main < i' + 1024)
    (h : i ≠ i') : i % RING ≠ i' % RING := by
  simp only [RING]; omega

theorem pcMap_returned {pc : PC} : pcMap pc = .returned ↔ pc = .returned := by cases pc <;> simp [pcMap]

theorem pcMap_ret {pc : PC} : pcMap pc = .ret ↔ pc = .ret := by cases pc <;> simp [pcMap]

theorem go_place (sl : Slot) (w : Nat) (pc : PC) (h : pc ≠ .ret ∧ pc ≠ .wait ∧ pc ≠ .returned) :
    (go sl w pc).2 ≠ .wait ∧ (go sl w pc).2 ≠ .returned := by
  cases pc <;> simp only [go, claim] <;> (repeat' split) <;> simp_all

theorem step_start {s : St} {r : Callers.St} {own : Nat → Option (Nat × Job)} (h : Sim s r own) (t : Nat) (j : Job) :
    Sim (step s (.start t j)) (Callers.step r (simAct s (.start t j))) own := by
  simp only [step, simAct, Callers.step, h.thread t]
  cases ht : s.thread t with
  | idle =>
    simp only [thr, if_true]
    have := sim_thread h t (.want j) (by rw [ht]; rfl) (by simp) (by simp) (by simp) (by simp) (by simp) s.lock s.poolIdx s.poolDone h.le
    convert this using 2 <;> simp [h.lock, h.idx, h.done, thr]
  | _ => exact h

theorem step_thread {s : St} {r : Callers.St} {own : Nat → Option (Nat × Job)} (h : Sim s r own) (inv : Callers.Inv False r) (t : Nat)
    (hu : Undisturbed s (.thread t)) (hc : Calm s) (hc' : Calm (step s (.thread t))) :
    ∃ own', Sim (step s (.thread t)) (Callers.step r (simAct s (.thread t))) own' := by
  have range : ∀ u i, (s.thread u).idx = some i → 1 ≤ i ∧ i ≤ s.main := fun u i e => by
    have := inv.range u i (by rw [h.thread, thr_idx]; exact e); rw [h.main] at this; exact this
  have dist : ∀ u u' i, (s.thread u).idx = some i → (s.thread u').idx = some i → u = u' := fun u u' i e e' =>
    inv.dist u u' i (by rw [h.thread, thr_idx]; exact e) (by rw [h.thread, thr_idx]; exact e')
  have apart : ∀ {i}, (s.thread t).idx = some i → ∀ u i', u ≠ t → (s.thread u).idx = some i' → i' % RING ≠ i % RING := by
    intro i e u i' hut e'
    refine mod_ne (range _ _ e').2 (range _ _ e).2 (hc _ _ e') (hc _ _ e) (fun e2 => hut ?_)
    subst e2; exact dist _ _ _ e' e
  cases ht : s.thread t with
  | idle =>
    simp only [step, simAct, Callers.step, h.thread t, ht, thr]; exact ⟨own, h⟩
  | want j =>
    simp only [step, simAct, Callers.step, h.thread t, ht, thr, h.lock]
    refine ⟨own, ?_⟩
    split
    · have := sim_thread h t (.serial j) (by rw [ht]; rfl) (by simp) (by simp) (by simp) (by simp) (by simp) s.lock s.poolIdx s.poolDone h.le
      convert this using 2 <;> simp [h.lock, h.idx, h.done, thr]
    · have := sim_thread h t (.take j) (by rw [ht]; rfl) (by simp) (by simp) (by simp) (by simp) (by simp) true s.poolIdx s.poolDone h.le
      convert this using 2 <;> simp [h.idx, h.done, thr]
  | take j =>
    have hst : step s (.thread t) = { s with main := s.main + 1, thread := upd s.thread t (.zig (s.main + 1) j) } := by
      simp only [step, ht]
    simp only [simAct, Callers.step, h.thread t, ht, thr]
    rw [hst] at hc' ⊢
    refine ⟨upd own ((s.main + 1) % RING) none, ?_⟩
    have := sim_take h t j ht (hu j ht) (fun u i e => ?_)
    · convert this using 2
      simp only [thr, h.main]
    · have hut : u ≠ t := fun e2 => by subst e2; rw [ht] at e; cases e
      have b : s.main + 1 < i + 1024 := hc' u i (by simp only [upd_ne _ _ hut]; exact e)
      have := (range u i e).2
      simp only [RING]; omega
  | zig i j =>
    simp only [step, simAct, Callers.step, ht, if_true]
    refine ⟨own, sim_store h t i _ (.unlock i j) (by rw [ht]; rfl) rfl (by rw [ht]; rfl) (by simp) ?_
      (fun u i' hut e => apart (by rw [ht]; rfl) u i' hut (writing_idx e))⟩
    intro i' j' e; cases e; exact ⟨rfl, rfl⟩
  | unlock i j =>
    simp only [step, simAct, Callers.step, h.thread t, ht, thr, if_true]
    refine ⟨own, ?_⟩
    have := sim_thread h t (.fill i j (stores i j)) (by rw [ht]; rfl) (by simp) (by simp) (by
      intro i' j' todo e; cases e
      exact ⟨stores_ne i j, stores_live i j _ (h.unlock t i j ht)⟩) (by simp) (by simp) false s.poolIdx s.poolDone h.le
    convert this using 2 <;> simp [h.idx, h.done, thr]
  | fill i j todo =>
    obtain ⟨f1, f2⟩ := h.fill t i j todo ht
    match todo, f1 with
    | [x], _ =>
      simp only [step, simAct, Callers.step, h.thread t, ht, thr, List.isEmpty_nil, if_true]
      exact ⟨_, sim_last h t i j x ht (range t i (by rw [ht]; rfl)).2 (apart (by rw [ht]; rfl))⟩
    | x :: y :: todo, _ =>
      simp only [step, simAct, Callers.step, ht, List.isEmpty_cons, if_true, Bool.false_eq_true, if_false]
      refine ⟨own, sim_store h t i x (.fill i j (y :: todo)) (by rw [ht]; rfl) rfl (by rw [ht]; rfl) ?_ (by simp)
        (fun u i' hut e => apart (by rw [ht]; rfl) u i' hut (writing_idx e))⟩
      intro i' j' todo' e; cases e; exact ⟨rfl, by simp, f2⟩
  | publish i j =>
    simp only [step, simAct, Callers.step, h.thread t, ht, thr]
    refine ⟨own, ?_⟩
    have ho := h.pub t i j ht
    obtain ⟨hk, st, a1, a2, a3, a4, a5, a6⟩ := h.live _ _ _ ho
    have := sim_thread h t (.inCall i j (s.slot (i % RING)).arg .own) (by rw [ht]; rfl) (by simp) (by simp) (by simp) (by
      intro i' j' arg pc e; cases e
      refine ⟨ho, a2.arg, by simp, fun st' e => ?_⟩
      rw [a1] at e; injection e with _ e; subst e
      exact ⟨a6 t j ht, trivial⟩) (by simp) s.lock i s.poolDone (range t i (by rw [ht]; rfl)).2
    convert this using 2 <;> simp [h.lock, h.done, thr]
  | inCall i j arg pc =>
    obtain ⟨ho, hag, hne⟩ := h.call t i j arg pc ht
    obtain ⟨hk, st, a1, a2, a3, a4, a5, a6⟩ := h.live _ _ _ ho
    have hp := (a5 t j arg pc ht).1
    have hret : (r.slot (i % RING)).returned ↔ pc = .returned := by
      rw [a1]; simp only [Callers.Item.returned, hp, pcMap_returned]
    simp only [step, simAct, Callers.step, h.thread t, ht, thr]
    refine ⟨own, ?_⟩
    have e1 : i % Callers.RING = i % RING := rfl
    by_cases e : pc = .returned
    · rw [if_pos e, if_pos (by rw [e1]; exact hret.2 e)]
      have := sim_thread h t (.finish i j) (by rw [ht]; rfl) (by simp) (by simp) (by simp) (by simp) (by intro i' j' e; cases e; exact ho) s.lock s.poolIdx s.poolDone h.le
      convert this using 2 <;> simp [h.lock, h.idx, h.done, thr]
    · rw [if_neg e, if_neg (by rw [e1]; exact fun e' => e (hret.1 e'))]
      refine sim_call h t i j arg pc ht st a1 (fun u i' hut e' e2 => hut ?_)
      subst e2; exact dist _ _ _ e' (by rw [ht]; rfl)
  | finish i j =>
    simp only [step, simAct, Callers.step, h.thread t, ht, thr]
    refine ⟨own, ?_⟩
    have := sim_thread h t .idle (by rw [ht]; rfl) (by simp) (by simp) (by simp) (by simp) (by simp) s.lock s.poolIdx i h.le
    convert this using 2 <;> simp [h.lock, h.idx, thr]
  | serial j =>
    simp only [step, simAct, Callers.step, h.thread t, ht, thr]
    refine ⟨own, ?_⟩
    have := sim_thread h t .idle (by rw [ht]; rfl) (by simp) (by simp) (by simp) (by simp) (by simp) s.lock s.poolIdx s.poolDone h.le
    convert this using 2 <;> simp [h.lock, h.idx, h.done, thr]

theorem step_worker {s : St} {r : Callers.St} {own : Nat → Option (Nat × Job)} (h : Sim s r own) (w : Nat)
    (hu : Undisturbed s (.worker w)) : Sim (step s (.worker w)) (Callers.step r (simAct s (.worker w))) own := by
  simp only [simAct, Callers.step]
  by_cases w0 : w = 0
  · simp only [step, w0, if_true]; exact h
  simp only [if_neg w0, h.worker w]
  cases hw : s.worker w with
  | top =>
    simp only [step, if_neg w0, hw, wrk, h.idx]
    have := sim_place h w (.cmp s.poolIdx) (by rw [hw]; intro; rfl) (fun _ => rfl) (by simp) (by
      intro wi e; cases e; exact h.le) (by simp)
    convert this using 2 <;> simp [h.idx, wrk]
  | cmp wi =>
    simp only [step, if_neg w0, hw, wrk, h.done]
    have hle := h.cmp w wi hw
    have := sim_place h w (if wi > s.poolDone then .look else .top) (by rw [hw]; intro; rfl) (by intro; split <;> rfl)
      (by intro k arg pc; split <;> simp) (by intro wi; split <;> simp) (by split <;> simp; omega)
    convert this using 2
    · exact h.done.symm
    · congr 1; split <;> rfl
  | look =>
    simp only [step, if_neg w0, hw, wrk, h.main]
    have hm := h.look w hw
    rcases h.newest hm with ⟨t, ht⟩ | ⟨j, ho⟩
    · exact absurd ht (hu hw t)
    · obtain ⟨hk, st, a1, a2, _⟩ := h.live _ _ _ ho
      have e1 : s.main % Callers.RING = s.main % RING := rfl
      have e2 : (r.slot (s.main % RING)).wakeup = (s.slot (s.main % RING)).wakeup := by
        rw [a1, a2.wakeup]; rfl
      have e3 : (r.slot (s.main % RING)).enter w = r.slot (s.main % RING) := by rw [a1]; rfl
      rw [e1, e2, e3, upd_self]
      split
      · rename_i hle
        have := sim_place h w (.inside (s.main % RING) 0 .enter) (by rw [hw]; intro; rfl) (by intro; simp [placeIn]) (by
          intro k arg pc e; cases e
          exact ⟨_, _, ho, by rw [← a2.wakeup]; exact hle, rfl⟩) (by simp) (by simp)
        convert this using 2
        · exact h.main.symm
        · rfl
      · have := sim_place h w .top (by rw [hw]; intro; rfl) (fun _ => rfl) (by simp) (by simp) (by simp)
        convert this using 2
        · exact h.main.symm
        · rfl
  | inside k arg pc =>
    obtain ⟨i, j, ho, hwk, harg, hn1, hn2⟩ := h.inside w k arg pc hw
    obtain ⟨hk, st, a1, a2, a3, _⟩ := h.live _ _ _ ho
    have hp := a3 w w0
    rw [hw] at hp
    simp only [placeIn, if_true] at hp
    have hwu : ¬ j.item.wakeup < w := by omega
    have hlv : (r.slot k).leaving w = decide (pc = .ret) := by
      rw [a1]; simp only [Callers.Item.leaving, hp.1]
      cases pc <;> rfl
    simp only [step, if_neg w0, hw, wrk]
    rw [hlv]
    by_cases e : pc = .ret
    · subst e
      simp only [reduceCtorEq, if_false, if_true, decide_true]
      have hstp : Work.step j.item st w = { st with pc := upd st.pc w .idle } := by
        simp only [Work.step, if_neg hwu, hp.1, pcMap, if_neg w0]
      have := sim_work h w k arg i j .ret hw ho w0 st a1 (s.slot k) .top (by
          rw [hstp]; exact ⟨a2.zigzag, a2.arg, a2.total, a2.wakeup, a2.blockLast, a2.blockSize, a2.completed, a2.next, a2.cur, a2.chan⟩)
        (by rw [hstp]; simp only [upd_same]; rfl) trivial (by intro c' hc'; rw [hstp]; simp only [upd_ne _ _ hc'])
        (by rw [hstp]; rfl) (.inr rfl)
      convert this using 2
      · rw [upd_self]
      · rfl
      · rfl
    · obtain ⟨g1, g2, g3, g4, g5⟩ := go_sim a2 w hwk pc hp.1 hp.2 (fun _ => ⟨e, hn1, hn2⟩)
      have hpl : placeIn k (.inside k i (go (s.slot k) w pc).2) = (go (s.slot k) w pc).2 := by simp [placeIn]
      have := sim_work h w k arg i j pc hw ho w0 st a1 (go (s.slot k) w pc).1 (.inside k i (go (s.slot k) w pc).2) g1
        (by rw [hpl]; exact g2) (by rw [hpl]; exact g3) g4 g5 (.inl ⟨_, rfl, go_place _ _ _ ⟨e, hn1, hn2⟩⟩)
      simp only [e, decide_false, Bool.false_eq_true, if_false]
      by_cases en : pc = .enter
      · subst en
        simp only [if_true]
        convert this using 2
        · simp only [go, upd_self]
        · simp only [go, a2.arg]
        · rfl
        · rfl
      · rw [if_neg en]
        have := harg en
        subst this
        assumption

theorem sim_step {s : St} {r : Callers.St} {own : Nat → Option (Nat × Job)} (h : Sim s r own) (inv : Callers.Inv False r) (a : Act)
    (hu : Undisturbed s a) (hc : Calm s) (hc' : Calm (step s a)) :
    ∃ own', Sim (step s a) (Callers.step r (simAct s a)) own' := by
  cases a with
  | start t j => exact ⟨own, step_start h t j⟩
  | thread t => exact step_thread h inv t hu hc hc'
  | worker w => exact ⟨own, step_worker h w hu⟩

theorem Sim.calm {s : St} {r : Callers.St} {own : Nat → Option (Nat × Job)} (h : Sim s r own) (hc : Calm s) : Callers.Calm r := by
  intro t i e
  rw [h.thread, thr_idx] at e
  rw [h.main]; exact hc t i e

theorem exec_snoc (mem : Nat → Slot) (l : List Act) (a : Act) : exec mem (l ++ [a]) = step (exec mem l) a := by
  simp [exec, List.foldl_append]

theorem prefix_snoc {α : Type} {p l : List α} {a : α} (h : p <+: l ++ [a]) : p <+: l ∨ p = l ++ [a] := by
  rcases List.prefix_concat_iff.1 (by simpa using h) with h | h
  · exact .inr (by simpa using h)
  · exact .inl h

/-- Every quiet history stands for one in which items are written in one step. -/
theorem sim_exec (mem : Nat → Slot) (l : List Act) (hq : Quiet mem l) :
    ∃ l' own, Sim (exec mem l) (Callers.exec l') own ∧ Callers.CalmHistory l' := by
  induction l using List.reverseRecOn with
  | nil =>
    refine ⟨[], _, sim_init mem, ?_⟩
    intro p hp t i e
    rw [List.prefix_nil.1 hp] at e; cases e
  | append_singleton l a ih =>
    have pre : l <+: l ++ [a] := List.prefix_append _ _
    obtain ⟨l', own, h, hc⟩ := ih ⟨fun p b hp => hq.1 p b (hp.trans pre), fun p hp => hq.2 p (hp.trans pre)⟩
    have c1 := hq.2 l pre
    have c2 := hq.2 (l ++ [a]) (List.prefix_refl _)
    rw [exec_snoc] at c2
    obtain ⟨own', h'⟩ := sim_step h (Callers.inv_exec False l' fun c => c.elim) a (hq.1 l a (List.prefix_refl _)) c1 c2
    refine ⟨l' ++ [simAct (exec mem l) a], own', by rw [exec_snoc, Callers.exec_snoc]; exact h', ?_⟩
    intro p hp
    rcases prefix_snoc hp with hp | rfl
    · exact hc p hp
    · rw [Callers.exec_snoc]; exact h'.calm c2

/-- The same for an infinite run. -/
theorem sim_states (mem : Nat → Slot) (σ : Nat → Act) (hq : QuietRun mem σ) (n : Nat) :
    ∃ own, Sim (states mem σ n) (Callers.states (fun m => simAct (states mem σ m) (σ m)) n) own ∧
      Callers.Inv False (Callers.states (fun m => simAct (states mem σ m) (σ m)) n) := by
  induction n with
  | zero => exact ⟨_, sim_init mem, Callers.inv_init _⟩
  | succ n ih =>
    obtain ⟨own, h, inv⟩ := ih
    obtain ⟨own', h'⟩ := sim_step h inv (σ n) (hq.1 n) (hq.2 n) (hq.2 (n + 1))
    exact ⟨own', h', Callers.inv_step inv _ (fun c => c.elim)⟩

/-- Steps of others leave a thread that is not idle where it is. -/
theorem thread_other (s : St) (a : Act) (t : Nat) (ha : a ≠ .thread t) (hi : s.thread t ≠ .idle) : (step s a).thread t = s.thread t := by
  cases a with
  | start u j =>
    simp only [step]
    cases e : s.thread u with
    | idle =>
      have : t ≠ u := fun e' => by subst e'; exact hi e
      simp only [upd_ne _ _ this]
    | _ => rfl
  | thread u =>
    have hu : t ≠ u := fun e => ha (by rw [e])
    simp only [step]
    cases e : s.thread u with
    | fill i j todo => cases todo <;> simp only [upd_ne _ _ hu]
    | want j => simp only; split <;> simp only [upd_ne _ _ hu]
    | inCall i j arg pc => simp only; split <;> simp only [upd_ne _ _ hu]
    | _ => simp only [upd_ne _ _ hu]
  | worker w =>
    simp only [step]
    split
    · rfl
    · cases e : s.worker w with
      | inside k arg pc => simp only; (repeat' split) <;> rfl
      | _ => rfl

/-- A thread that keeps running keeps taking steps that count in the other model. -/
theorem thread_counts (mem : Nat → Slot) (σ : Nat → Act) (t : Nat) (hth : ∀ m, ∃ m', m ≤ m' ∧ σ m' = .thread t) (m : Nat) :
    ∃ m', m ≤ m' ∧ simAct (states mem σ m') (σ m') = .thread t := by
  have next : ∀ m, (states mem σ m).thread t ≠ .idle → ∃ m', m ≤ m' ∧ σ m' = .thread t ∧ (states mem σ m').thread t = (states mem σ m).thread t := by
    intro m hi
    obtain ⟨m', hle, he⟩ := hth m
    have key : ∀ d, (∃ m', m ≤ m' ∧ σ m' = .thread t ∧ (states mem σ m').thread t = (states mem σ m).thread t) ∨
        (states mem σ (m + d)).thread t = (states mem σ m).thread t := by
      intro d
      induction d with
      | zero => exact .inr rfl
      | succ d ih =>
        rcases ih with h | h
        · exact .inl h
        · by_cases e : σ (m + d) = .thread t
          · exact .inl ⟨m + d, by omega, e, h⟩
          · right
            rw [← Nat.add_assoc]
            show (step (states mem σ (m + d)) (σ (m + d))).thread t = _
            rw [thread_other _ _ _ e (by rw [h]; exact hi), h]
    obtain ⟨d, rfl⟩ := Nat.exists_eq_add_of_le hle
    rcases key d with h | h
    · exact h
    · exact ⟨m + d, hle, he, h⟩
  have fill : ∀ k m i j todo, todo.length = k → (states mem σ m).thread t = .fill i j todo →
      ∃ m', m ≤ m' ∧ simAct (states mem σ m') (σ m') = .thread t := by
    intro k
    induction k with
    | zero =>
      intro m i j todo hl h
      obtain ⟨m', hle, he, hs⟩ := next m (by rw [h]; simp)
      refine ⟨m', hle, ?_⟩
      obtain rfl := List.length_eq_zero_iff.1 hl
      simp only [he, simAct, hs, h]
    | succ k ih =>
      intro m i j todo hl h
      obtain ⟨m', hle, he, hs⟩ := next m (by rw [h]; simp)
      match todo, hl with
      | [x], _ => exact ⟨m', hle, by simp only [he, simAct, hs, h]⟩
      | x :: y :: rest, hl =>
        have : (states mem σ (m' + 1)).thread t = .fill i j (y :: rest) := by
          show (step (states mem σ m') (σ m')).thread t = _
          simp only [he, step, hs, h, upd_same, List.isEmpty_cons, Bool.false_eq_true, if_false]
        obtain ⟨m2, h2, h3⟩ := ih (m' + 1) i j (y :: rest) (by simpa using hl) this
        exact ⟨m2, by omega, h3⟩
  have zig : ∀ m i j, (states mem σ m).thread t = .unlock i j → ∃ m', m ≤ m' ∧ simAct (states mem σ m') (σ m') = .thread t := by
    intro m i j h
    obtain ⟨m', hle, he, hs⟩ := next m (by rw [h]; simp)
    exact ⟨m', hle, by simp only [he, simAct, hs, h]⟩
  obtain ⟨m1, hle, he⟩ := hth m
  cases h : (states mem σ m1).thread t with
  | zig i j =>
    have : (states mem σ (m1 + 1)).thread t = .unlock i j := by
      show (step (states mem σ m1) (σ m1)).thread t = _
      simp only [he, step, h, upd_same]
    obtain ⟨m2, h2, h3⟩ := zig (m1 + 1) i j this
    exact ⟨m2, by omega, h3⟩
  | fill i j todo =>
    obtain ⟨m2, h2, h3⟩ := fill _ m1 i j todo rfl h
    exact ⟨m2, by omega, h3⟩
  | _ => exact ⟨m1, hle, by simp only [he, simAct, h]⟩

end Pnumpy.Fill
