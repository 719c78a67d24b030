import Verif.Spec.Memory
import Verif.Proofs.TsoCounterLive
import Verif.Props.Tso
import Verif.Props.Arange
/-
Property theorems C87: indexing, arange, record-array conversion and chunk work (threads draw task numbers from a counter) on a processor with store buffers.
-/
namespace Pnumpy.Props
open Spec Pnumpy.TsoCounter
open Pnumpy.Tso (load load_eq load_not_mem applyAll)
open Counter (Cfg)

variable {V : Type}

/-- The tasks keep out of each other's way: executed alone on memory `m`, no task changes a cell that another one loads or stores. A task may store to any cell
the value that is there. -/
def TasksApart (n : Nat) (prog : Nat → Prog V) (m : Nat → V) : Prop :=
  ∀ b b', b < n → b' < n → b ≠ b' → ∀ a, (∃ v, (a, v) ∈ seqStores (prog b) m ∧ v ≠ m a) → a ∉ seqLoads (prog b') m ∧ ∀ v, (a, v) ∉ seqStores (prog b') m

theorem apart_disjoint {n : Nat} {prog : Nat → Prog V} {m : Nat → V} (h : TasksApart n prog m) : Disjoint n prog m := by
  rintro b b' hb hb' hne a hc (hl | ⟨v, hv⟩)
  · exact (h b b' hb hb' hne a hc).1 hl
  · exact (h b b' hb hb' hne a hc).2 v hv

/-- C87: whatever the number of tasks and threads, the code of the tasks, the interleaving (down to single loads and stores), the delay of every store, and
whatever stores of the caller were still on their way when it made the call: when the call has returned, memory is exactly what it would be if one thread had done
the tasks one after the other on what the caller saw when it made the call, and no store of any thread is still on its way. The tasks must keep out of each
other's way. -/
theorem C87_as_if_serial [DecidableEq V] (g : Cfg) (prog : Nat → Prog V) (mem : Nat → V) (before : List (Nat × V)) (flag : Nat × V)
    (hd : TasksApart g.n prog (lastStored mem (before ++ [flag]))) (hu : Unpublished mem before flag) (acts : List Act)
    (hret : (exec g prog mem before flag acts).ctl.pc 0 = .returned) :
    (∀ a, (exec g prog mem before flag acts).mem a = serial prog 0 g.n (lastStored mem (before ++ [flag])) a) ∧
    ∀ c, (exec g prog mem before flag acts).buf c = [] := by
  have hd' : Disjoint g.n prog (applyAll mem (before ++ [flag])) := by rw [applyAll_lastStored]; exact apart_disjoint hd
  have h2 := inv2_exec hd' hu.2 hu.1 acts
  generalize exec g prog mem before flag acts = s at *
  rcases h2 with h | h
  · rw [h.ctl] at hret; cases hret
  rw [applyAll_lastStored] at h
  have hfull : ∀ b, b < g.n → b ∈ s.ctl.doneL := by
    have hc := h.work.retDone 0 hret
    rw [← h.work.doneLen] at hc
    exact Work.nodup_full h.work.doneNodup (fun b hb => Counter.Inv.claimed_lt (h.work.logClaimed b (h.work.doneLog b hb))) hc
  refine ⟨fun a => ?_, fun c => h.free c fun b hb => At.not_done h.work hb (hfull b (At.lt h.work hb))⟩
  obtain ⟨e1, e2⟩ := serial_eq (g := g) (apart_disjoint hd) g.n 0 (Nat.zero_add _) (lastStored mem (before ++ [flag])) (fun _ _ _ _ _ => rfl)
  by_cases hex : ∃ b, b < g.n ∧ Chg prog (lastStored mem (before ++ [flag])) b a
  · obtain ⟨b, hb, ha⟩ := hex
    rw [e1 b (Nat.zero_le _) hb a ha]
    exact h.fin b (hfull b hb) a ha
  · have hex' : ∀ b, b < g.n → ¬ Chg prog (lastStored mem (before ++ [flag])) b a := fun b hb ha => hex ⟨b, hb, ha⟩
    rw [e2 a (fun b _ hb => hex' b hb)]
    exact h.rest a hex'

/-- C87, at every moment of the call: a worker that has entered the call sees in every cell that no task stores to what the caller last stored there - the
input arrays, the fields of the work item, the callback argument. -/
theorem C87_published [DecidableEq V] (g : Cfg) (prog : Nat → Prog V) (mem : Nat → V) (before : List (Nat × V)) (flag : Nat × V)
    (hd : TasksApart g.n prog (lastStored mem (before ++ [flag]))) (hu : Unpublished mem before flag) (acts : List Act) (c : Nat) (hc : 1 ≤ c)
    (hin : (exec g prog mem before flag acts).ctl.pc c ≠ .idle) (a : Nat) (ha : ∀ b v, b < g.n → (a, v) ∉ seqStores (prog b) (lastStored mem (before ++ [flag]))) :
    load (exec g prog mem before flag acts).mem ((exec g prog mem before flag acts).buf c) a = lastStored mem (before ++ [flag]) a := by
  have hd' : Disjoint g.n prog (applyAll mem (before ++ [flag])) := by rw [applyAll_lastStored]; exact apart_disjoint hd
  have h2 := inv2_exec hd' hu.2 hu.1 acts
  generalize exec g prog mem before flag acts = s at *
  rcases h2 with h | h
  · rw [h.ctl] at hin
    exact absurd (if_neg (by omega)) hin
  · rw [applyAll_lastStored] at h
    rw [load_not_mem, h.rest a (fun b hb ⟨v, hv, _⟩ => ha b v hb hv)]
    intro p hp he
    by_cases hat : ∃ b, At (s.ctl.pc c) b
    · obtain ⟨b, hb⟩ := hat
      obtain ⟨_, _, _, _, e4, _⟩ := h.busy c b hb
      exact ha b p.2 (At.lt h.work hb) (by rw [← he]; exact e4 p hp)
    · rw [h.free c (fun b hb => hat ⟨b, hb⟩)] at hp; cases hp

/-- The fairness the call needs: the caller keeps being scheduled, no thread is suspended for ever in the middle of a task, no store stays in its buffer
for ever. -/
structure TsoFair [DecidableEq V] (g : Cfg) (prog : Nat → Prog V) (mem : Nat → V) (before : List (Nat × V)) (flag : Nat × V) (σ : Nat → Act) : Prop where
  caller : ∀ t, ∃ t', t ≤ t' ∧ σ t' = .go 0
  busy : ∀ t c, ((trace g prog mem before flag σ t).ctl.pc c).busy = true → ∃ t', t ≤ t' ∧ σ t' = .go c
  drains : ∀ t c, (trace g prog mem before flag σ t).buf c ≠ [] → ∃ t', t ≤ t' ∧ σ t' = .drain c

theorem outside_idle [DecidableEq V] {g : Cfg} {prog : Nat → Prog V} {mem : Nat → V} {before : List (Nat × V)} {flag : Nat × V} {σ : Nat → Act} (t c : Nat)
    (hlt : g.wakeup < c) : (trace g prog mem before flag σ t).ctl.pc c = .idle := by
  induction t with
  | zero => exact if_neg (by omega)
  | succ t ih =>
    rw [trace, step_ctl]
    cases ha : who g flag (trace g prog mem before flag σ t) (σ t) with
    | go d =>
      by_cases hd : c = d
      · subst hd; unfold Counter.step; simp only [if_pos hlt]; exact ih
      · rw [Counter.step_other g _ hd _ (Or.inl rfl)]; exact ih
    | wake d =>
      by_cases hd : c = d
      · subst hd; unfold Counter.step; simp only
        rw [if_neg (by rintro ⟨h, _⟩; rw [ih] at h; cases h)]; exact ih
      · rw [Counter.step_other g _ hd _ (Or.inr rfl)]; exact ih

theorem ctl_fair [DecidableEq V] {g : Cfg} {prog : Nat → Prog V} {mem : Nat → V} {before : List (Nat × V)} {flag : Nat × V} {σ : Nat → Act}
    (hf : TsoFair g prog mem before flag σ) : Counter.Fair g (ctlSched g prog mem before flag σ) := by
  refine ⟨fun t => ?_, fun t c hb => ?_⟩
  · have hm := (Counter.inv_trace g (ctlSched g prog mem before flag σ) t).main
    rw [← trace_ctl] at hm
    exact moves (Nat.zero_le _) rfl hm.1 hm.2 (fun u _ _ => hf.caller u) (fun u hu => hf.drains u 0 hu)
  · have hb' : ((trace g prog mem before flag σ t).ctl.pc c).busy = true := by rw [trace_ctl]; exact hb
    have hcw : c ≤ g.wakeup := by
      refine Nat.le_of_not_lt fun hlt => ?_
      rw [outside_idle t c hlt] at hb'; cases hb'
    refine moves hcw rfl ?_ ?_ (fun u _ he => hf.busy u c (by rw [he]; exact hb')) (fun u hu => hf.drains u c hu)
    · intro he; rw [he] at hb'; cases hb'
    · intro he; rw [he] at hb'; cases hb'

/-- Until somebody has drawn a number the caller has not. -/
theorem first_fetch (g : Cfg) (σ : Nat → Counter.Act) (t : Nat) (h : (Counter.trace g σ t).next = 0) : (Counter.trace g σ t).pc 0 = .fetch false := by
  induction t with
  | zero => rfl
  | succ t ih =>
    have hm := Counter.next_mono g (Counter.trace g σ t) (σ t)
    rw [Counter.trace] at h ⊢
    have hp := ih (by omega)
    cases ha : σ t with
    | wake d =>
      by_cases hd : 0 = d
      · subst hd; unfold Counter.step; simp only; rw [if_neg (fun hx => hx.2 rfl)]; exact hp
      · rw [Counter.step_other g _ hd _ (Or.inr rfl)]; exact hp
    | go d =>
      by_cases hd : 0 = d
      · subst hd
        rw [ha] at h
        unfold Counter.step at h
        simp only [hp, Nat.not_lt_zero, if_false] at h
        omega
      · rw [Counter.step_other g _ hd _ (Or.inl rfl)]; exact hp

/-- C87: in chunk mode (indexing, arange) the call returns in every fair run; the workers may be starved otherwise. -/
theorem C87_returns [DecidableEq V] (n wakeup : Nat) (prog : Nat → Prog V) (mem : Nat → V) (before : List (Nat × V)) (flag : Nat × V) (σ : Nat → Act)
    (hf : TsoFair { n, skip0 := false, wakeup } prog mem before flag σ) :
    ∃ t, (trace { n, skip0 := false, wakeup } prog mem before flag σ t).ctl.pc 0 = .returned := by
  obtain ⟨t, ht⟩ := Counter.live (ctl_fair hf) (by simp)
  exact ⟨t, by rw [trace_ctl]; exact ht⟩

/-- C87: in index mode (record arrays) the call returns in every fair run in which some worker takes part and keeps being scheduled, if no task stores to the
cell that publishes the item. Without a worker it never returns (C04_index_hangs_without_worker). -/
theorem C87_index_returns_partial [DecidableEq V] (n wakeup : Nat) (prog : Nat → Prog V) (mem : Nat → V) (before : List (Nat × V)) (flag : Nat × V) (σ : Nat → Act)
    (hd : TasksApart n prog (lastStored mem (before ++ [flag]))) (hu : Unpublished mem before flag)
    (hflag : ∀ b v, b < n → (flag.1, v) ∉ seqStores (prog b) (lastStored mem (before ++ [flag])))
    (hf : TsoFair { n, skip0 := true, wakeup } prog mem before flag σ) (w : Nat) (hw : 1 ≤ w) (hw' : w ≤ wakeup) (hworker : ∀ t, ∃ t', t ≤ t' ∧ σ t' = .go w) :
    ∃ t, (trace { n, skip0 := true, wakeup } prog mem before flag σ t).ctl.pc 0 = .returned := by
  have hd' : Disjoint n prog (applyAll mem (before ++ [flag])) := by rw [applyAll_lastStored]; exact apart_disjoint hd
  have hinv : ∀ t, Inv2 { n, skip0 := true, wakeup } prog mem before flag (trace { n, skip0 := true, wakeup } prog mem before flag σ t) := by
    intro t
    induction t with
    | zero => exact inv2_exec (g := { n, skip0 := true, wakeup }) hd' hu.2 hu.1 []
    | succ t ih => exact inv2_step (g := { n, skip0 := true, wakeup }) hd' hu.2 hu.1 ih (σ t)
  have hfin := ctl_fair hf
  -- the item gets published: the caller draws its first number, which it can only do afterwards
  have hpub : ∀ t, ∃ u, t ≤ u ∧ ∀ v, u ≤ v → InvB { n, skip0 := true, wakeup } prog (applyAll mem (before ++ [flag])) (trace { n, skip0 := true, wakeup } prog mem before flag σ v) := by
    intro t
    obtain ⟨u, hu1, hu2⟩ := hfin.1 t
    have hmono : ∀ v, u + 1 ≤ v → 0 < (trace { n, skip0 := true, wakeup } prog mem before flag σ v).ctl.next ∨ (trace { n, skip0 := true, wakeup } prog mem before flag σ v).ctl.pc 0 ≠ .fetch false := by
      intro v hv
      by_cases hz : 0 < (trace { n, skip0 := true, wakeup } prog mem before flag σ v).ctl.next
      · exact Or.inl hz
      · exfalso
        rw [trace_ctl] at hz
        have h1 := Counter.trace_next_mono { n, skip0 := true, wakeup } (ctlSched { n, skip0 := true, wakeup } prog mem before flag σ) (u + 1) (v - (u + 1))
        rw [show u + 1 + (v - (u + 1)) = v by omega] at h1
        have h0 : (Counter.trace { n, skip0 := true, wakeup } (ctlSched { n, skip0 := true, wakeup } prog mem before flag σ) u).next = 0 := by
          have := Counter.next_mono { n, skip0 := true, wakeup } (Counter.trace { n, skip0 := true, wakeup } (ctlSched { n, skip0 := true, wakeup } prog mem before flag σ) u) (ctlSched { n, skip0 := true, wakeup } prog mem before flag σ u)
          rw [Counter.trace] at h1
          omega
        have hpc : (Counter.trace { n, skip0 := true, wakeup } (ctlSched { n, skip0 := true, wakeup } prog mem before flag σ) u).pc 0 = .fetch false := by
          refine first_fetch _ _ u h0
        rw [Counter.trace, hu2] at h1
        unfold Counter.step at h1
        simp only [hpc, Nat.not_lt_zero, if_false] at h1
        omega
    refine ⟨u + 1, by omega, fun v hv => ?_⟩
    rcases hinv v with h | h
    · rcases hmono v hv with h1 | h1
      · rw [h.ctl] at h1; exact absurd h1 (Nat.lt_irrefl 0)
      · rw [h.ctl] at h1; exact absurd rfl h1
    · exact h
  have hwk : ∀ t, ∃ u, t ≤ u ∧ ctlSched { n, skip0 := true, wakeup } prog mem before flag σ u = .go w := by
    intro t
    obtain ⟨u, hu1, hB⟩ := hpub t
    refine Classical.byContradiction fun hno => ?_
    have hno' : ∀ v, t ≤ v → ctlSched { n, skip0 := true, wakeup } prog mem before flag σ v ≠ .go w := fun v hv e => hno ⟨v, hv, e⟩
    have hc' : ¬ wakeup < w := by omega
    have hnotidle : ∀ v, u ≤ v → σ v = .go w → (trace { n, skip0 := true, wakeup } prog mem before flag σ v).ctl.pc w ≠ .idle := by
      intro v hv hσ hp
      refine hno' v (by omega) ?_
      unfold ctlSched who
      have hBv := hB v hv
      have hbuf := hBv.free w (by rw [hp]; rintro b (hb | hb) <;> cases hb)
      have hm := hBv.rest flag.1 (by rw [applyAll_lastStored]; exact fun b hb ⟨v, hv, _⟩ => hflag b v hb hv)
      have hm2 : applyAll mem (before ++ [flag]) flag.1 = flag.2 := by rw [applyAll_lastStored]; unfold lastStored; simp
      simp only [hσ, if_neg hc', hp, hbuf]
      rw [if_pos]
      show (trace { n, skip0 := true, wakeup } prog mem before flag σ v).mem flag.1 = flag.2
      rw [hm, hm2]
    have hnotasleep : ∀ v, u ≤ v → σ v = .go w → (trace { n, skip0 := true, wakeup } prog mem before flag σ v).ctl.pc w ≠ .asleep := by
      intro v hv hσ hp
      refine hno' v (by omega) ?_
      unfold ctlSched who
      simp only [hσ, if_neg hc', hp]
    obtain ⟨v, hv, hσ⟩ := hworker u
    obtain ⟨x, hx, he⟩ := moves (t := v) (c := w) (g := { n, skip0 := true, wakeup }) hw' rfl (hnotidle v hv hσ) (hnotasleep v hv hσ)
      (fun x _ _ => hworker x) (fun x hx => hf.drains x w hx)
    exact hno' x (by omega) he
  obtain ⟨t, ht⟩ := Counter.live hfin (fun _ => ⟨w, hw, hw', hwk⟩)
  exact ⟨t, by rw [trace_ctl]; exact ht⟩

theorem outside_buf [DecidableEq V] {g : Cfg} {prog : Nat → Prog V} {mem : Nat → V} {before : List (Nat × V)} {flag : Nat × V} {σ : Nat → Act} (t c : Nat)
    (hlt : g.wakeup < c) : (trace g prog mem before flag σ t).buf c = [] := by
  induction t with
  | zero => exact if_neg (by omega)
  | succ t ih =>
    rcases buf_shrinks (g := g) (prog := prog) (flag := flag) (trace g prog mem before flag σ t) (σ t) c (by rw [outside_idle t c hlt]; intro b h; cases h) with h | ⟨_, h⟩
    · rw [trace, h, ih]
    · rw [trace, h, ih]; rfl

/-- The caller, worker 1 and their store buffers in turns. -/
def tsoTurns (t : Nat) : Act := if t % 4 = 0 then .go 0 else if t % 4 = 1 then .go 1 else if t % 4 = 2 then .drain 0 else .drain 1

theorem tsoTurns_fair [DecidableEq V] (n : Nat) (skip0 : Bool) (prog : Nat → Prog V) (mem : Nat → V) (before : List (Nat × V)) (flag : Nat × V) :
    TsoFair { n, skip0, wakeup := 1 } prog mem before flag tsoTurns := by
  have h4 : ∀ t r, r < 4 → ∃ t', t ≤ t' ∧ t' % 4 = r := fun t r hr => ⟨4 * t + r, by omega, by omega⟩
  have hgo : ∀ c, c ≤ 1 → ∀ t, ∃ t', t ≤ t' ∧ tsoTurns t' = .go c := by
    intro c hc t
    obtain ⟨t', h1, h2⟩ := h4 t c (by omega)
    refine ⟨t', h1, ?_⟩
    unfold tsoTurns
    rcases (by omega : c = 0 ∨ c = 1) with rfl | rfl <;> simp [h2]
  refine ⟨hgo 0 (by decide), fun t c hb => ?_, fun t c hb => ?_⟩
  · by_cases hc : c ≤ 1
    · exact hgo c hc t
    · rw [outside_idle t c (by show 1 < c; omega)] at hb; cases hb
  · by_cases hc : c ≤ 1
    · obtain ⟨t', h1, h2⟩ := h4 t (c + 2) (by omega)
      refine ⟨t', h1, ?_⟩
      unfold tsoTurns
      rcases (by omega : c = 0 ∨ c = 1) with rfl | rfl <;> simp [h2]
    · exact absurd (outside_buf t c (by show 1 < c; omega)) hb

/-- Case: any chunk-mode call with one worker under that schedule. -/
example (n : Nat) (prog : Nat → Prog Int) (mem : Nat → Int) (before : List (Nat × Int)) (flag : Nat × Int) :
    ∃ t, (trace { n, skip0 := false, wakeup := 1 } prog mem before flag tsoTurns t).ctl.pc 0 = .returned :=
  C87_returns n 1 prog mem before flag tsoTurns (tsoTurns_fair n false prog mem before flag)

/-- Two rows of a record array: task `b` copies cell `b` to cell `10 + b`. -/
def copyRow (b : Nat) : Prog Int := .load b fun v => .store (10 + b) v .done

theorem copyRow_apart (n : Nat) (hn : n ≤ 10) (m : Nat → Int) : TasksApart n copyRow m := by
  rintro b b' hb hb' hne a ⟨v, hv, _⟩
  simp only [copyRow, seqStores, List.mem_singleton, Prod.mk.injEq] at hv
  obtain ⟨rfl, _⟩ := hv
  simp only [copyRow, seqLoads, seqStores, List.mem_singleton, Prod.mk.injEq]
  exact ⟨by omega, fun w hw => by omega⟩

def copyMem (a : Nat) : Int := if a = 100 then 0 else a

/-- Case: the two rows in index mode, caller and one worker in turns. -/
example : ∃ t, (trace { n := 2, skip0 := true, wakeup := 1 } copyRow copyMem [(1, 70)] (100, 1) tsoTurns t).ctl.pc 0 = .returned :=
  C87_index_returns_partial 2 1 copyRow copyMem [(1, 70)] (100, 1) tsoTurns (copyRow_apart 2 (by decide) _) ⟨by decide, by decide⟩
    (by intro b v hb; simp [copyRow, seqStores]; intro h; omega)
    (tsoTurns_fair 2 true _ _ _ _) 1 (by decide) (by decide) (fun t => ⟨4 * t + 1, by omega, by simp [tsoTurns]⟩)

def copyRun : List Act := (List.replicate 14 [Act.go 0, .go 1, .drain 0, .drain 1]).flatten

example : (exec { n := 2, skip0 := true, wakeup := 1 } copyRow copyMem [(1, 70)] (100, 1) copyRun).mem 11 = 70 :=
  ((C87_as_if_serial { n := 2, skip0 := true, wakeup := 1 } copyRow copyMem [(1, 70)] (100, 1) (copyRow_apart 2 (by decide) _) ⟨by decide, by decide⟩ copyRun (by decide)).1 11).trans (by decide)

/-- Case: in the middle of that call the worker sees the caller's 70 in cell 1. -/
example : load (exec { n := 2, skip0 := true, wakeup := 1 } copyRow copyMem [(1, 70)] (100, 1) (copyRun.take 12)).mem
    ((exec { n := 2, skip0 := true, wakeup := 1 } copyRow copyMem [(1, 70)] (100, 1) (copyRun.take 12)).buf 1) 1 = 70 :=
  (C87_published { n := 2, skip0 := true, wakeup := 1 } copyRow copyMem [(1, 70)] (100, 1) (copyRow_apart 2 (by decide) _) ⟨by decide, by decide⟩ (copyRun.take 12) 1 (by decide) (by decide) 1
    (by intro b v hb; simp [copyRow, seqStores]; intro h; omega)).trans (by decide)

/-! ### Chunk work -/

theorem andThen_run (p q : Prog V) : ∀ m : Nat → V, seqRun (p.andThen q) m = seqRun q (seqRun p m) := by
  induction p with
  | done => intro m; rfl
  | load a k ih => intro m; exact ih _ m
  | store a v k ih => intro m; exact ih _

theorem andThen_stores (p q : Prog V) : ∀ m : Nat → V, seqStores (p.andThen q) m = seqStores p m ++ seqStores q (seqRun p m) := by
  induction p with
  | done => intro m; rfl
  | load a k ih => intro m; exact ih _ m
  | store a v k ih => intro m; exact congrArg ((a, v) :: ·) (ih _)

theorem andThen_loads (p q : Prog V) : ∀ m : Nat → V, seqLoads (p.andThen q) m = seqLoads p m ++ seqLoads q (seqRun p m) := by
  induction p with
  | done => intro m; rfl
  | load a k ih => intro m; exact congrArg (a :: ·) (ih _ m)
  | store a v k ih => intro m; exact ih _

theorem loop_run (code : Nat → Prog V) : ∀ (k i : Nat) (m : Nat → V), seqRun (loopCode code i k) m = serial code i k m := by
  intro k
  induction k with
  | zero => intro i m; rfl
  | succ k ih => intro i m; rw [loopCode, andThen_run, ih]; rfl

theorem serial_add (code : Nat → Prog V) : ∀ (k l i : Nat) (m : Nat → V), serial code i (k + l) m = serial code (i + k) l (serial code i k m) := by
  intro k
  induction k with
  | zero => intro l i m; rw [Nat.zero_add]; rfl
  | succ k ih =>
    intro l i m
    rw [show k + 1 + l = (k + l) + 1 by omega, serial, ih, serial, show i + 1 + k = i + (k + 1) by omega]

/-- What a loop accesses, if its elements keep out of each other's way. -/
theorem loop_acc {n : Nat} {code : Nat → Prog V} {m1 : Nat → V} (hd : Disjoint n code m1) : ∀ (k i : Nat), i + k ≤ n → ∀ m : Nat → V,
    (∀ j, i ≤ j → j < i + k → ∀ a, Acc code m1 j a → m a = m1 a) →
    (∀ p ∈ seqStores (loopCode code i k) m, ∃ j, i ≤ j ∧ j < i + k ∧ p ∈ seqStores (code j) m1) ∧
    (∀ a ∈ seqLoads (loopCode code i k) m, ∃ j, i ≤ j ∧ j < i + k ∧ a ∈ seqLoads (code j) m1) := by
  intro k
  induction k with
  | zero => intro i _ m _; exact ⟨fun a ha => (by cases ha), fun a ha => (by cases ha)⟩
  | succ k ih =>
    intro i hi m hm
    obtain ⟨e1, e2, e3⟩ := seq_agree (code i) (m := m1) (m' := m) (fun a ha => (hm i (Nat.le_refl _) (by omega) a (Or.inl ha)).symm)
    obtain ⟨f1, f2⟩ := ih (i + 1) (by omega) (seqRun (code i) m) (by
      intro j h1 h2 a ha
      rw [run_other (prog := code) (b := i) (hm i (Nat.le_refl _) (by omega)) (fun hx => hd i j (by omega) (by omega) (by omega) a hx ha)]
      exact hm j (by omega) (by omega) a ha)
    refine ⟨?_, ?_⟩
    · intro a ha
      rw [loopCode, andThen_stores, List.mem_append, e2] at ha
      rcases ha with ha | ha
      · exact ⟨i, Nat.le_refl _, by omega, ha⟩
      · obtain ⟨j, h1, h2, h3⟩ := f1 a ha
        exact ⟨j, by omega, by omega, h3⟩
    · intro a ha
      rw [loopCode, andThen_loads, List.mem_append, e1] at ha
      rcases ha with ha | ha
      · exact ⟨i, Nat.le_refl _, by omega, ha⟩
      · obtain ⟨j, h1, h2, h3⟩ := f2 a ha
        exact ⟨j, by omega, by omega, h3⟩

theorem chunk_len (n b : Nat) (hb : b < (n + 16383) / 16384) :
    (Work.workMainSetup n 0 0 Work.CHUNK true 0).blockLen b = min 16384 (n - 16384 * b) := by
  exact (Work.blockLen_generic n 0 0 0 b (by rw [Work.blockLast_generic]; exact hb)).1

theorem chunks_apart {n : Nat} {code : Nat → Prog V} {m : Nat → V} (hd : TasksApart n code m) : TasksApart ((n + 16383) / 16384) (chunkCode n code) m := by
  intro b b' hb hb' hne a ha
  have hl := chunk_len n b hb
  have hl' := chunk_len n b' hb'
  have hC : Work.CHUNK = 16384 := rfl
  obtain ⟨f1, _⟩ := loop_acc (apart_disjoint hd) (min 16384 (n - 16384 * b)) (16384 * b) (by omega) m (fun _ _ _ _ _ => rfl)
  obtain ⟨g1, g2⟩ := loop_acc (apart_disjoint hd) (min 16384 (n - 16384 * b')) (16384 * b') (by omega) m (fun _ _ _ _ _ => rfl)
  unfold chunkCode at ha ⊢
  rw [hl, hC] at ha
  rw [hl', hC]
  obtain ⟨v, ha, hv⟩ := ha
  obtain ⟨i, h1, h2, h3⟩ := f1 _ ha
  refine ⟨fun hx => ?_, fun w hx => ?_⟩
  · obtain ⟨j, k1, k2, k3⟩ := g2 a hx
    exact (hd i j (by omega) (by omega) (by omega) a ⟨v, h3, hv⟩).1 k3
  · obtain ⟨j, k1, k2, k3⟩ := g1 _ hx
    exact (hd i j (by omega) (by omega) (by omega) a ⟨v, h3, hv⟩).2 w k3

theorem serial_chunks (n : Nat) (code : Nat → Prog V) : ∀ (k b : Nat), b + k = (n + 16383) / 16384 → ∀ m : Nat → V,
    serial (chunkCode n code) b k m = serial code (16384 * b) (n - 16384 * b) m := by
  intro k
  induction k with
  | zero => intro b hb m; rw [show n - 16384 * b = 0 by omega]; rfl
  | succ k ih =>
    intro b hb m
    rw [serial, ih (b + 1) (by omega)]
    unfold chunkCode
    rw [loop_run, chunk_len n b (by omega), show Work.CHUNK = 16384 from rfl]
    by_cases hk : 16384 ≤ n - 16384 * b
    · rw [show min 16384 (n - 16384 * b) = 16384 by omega, show n - 16384 * b = 16384 + (n - 16384 * (b + 1)) by omega, serial_add,
        show 16384 * (b + 1) = 16384 * b + 16384 by omega]
    · rw [show min 16384 (n - 16384 * b) = n - 16384 * b by omega, show n - 16384 * (b + 1) = 0 by omega]
      rfl

/-- C87 for chunk work: a kernel whose loop body for element `i` is the code `code i` (any loads and stores), on `n` elements, any number of threads: when the
call has returned, memory is as if one thread had run the loop from `0` to `n - 1`. The elements must keep out of each other's way. -/
theorem C87_chunk_work [DecidableEq V] (n wakeup : Nat) (code : Nat → Prog V) (mem : Nat → V) (before : List (Nat × V)) (flag : Nat × V)
    (hd : TasksApart n code (lastStored mem (before ++ [flag]))) (hu : Unpublished mem before flag) (acts : List Act)
    (hret : (exec { n := (n + 16383) / 16384, skip0 := false, wakeup } (chunkCode n code) mem before flag acts).ctl.pc 0 = .returned) (a : Nat) :
    (exec { n := (n + 16383) / 16384, skip0 := false, wakeup } (chunkCode n code) mem before flag acts).mem a =
      serial code 0 n (lastStored mem (before ++ [flag])) a := by
  rw [(C87_as_if_serial { n := (n + 16383) / 16384, skip0 := false, wakeup } _ mem before flag (chunks_apart hd) hu acts hret).1 a]
  show serial (chunkCode n code) 0 ((n + 16383) / 16384) _ a = _
  rw [serial_chunks n code ((n + 16383) / 16384) 0 (Nat.zero_add _), Nat.mul_zero, Nat.sub_zero]

/-- C87 for indexing with an array of integers: any number of elements and threads, any schedule, any delay of the stores: when the call has returned, every output
cell holds what the caller saw, when it made the call, in the cell selected by what it saw in the index (`sel` is the table cell of an index, or the
default's cell for an index out of range); every other cell holds what the caller last stored there. The output cells must be different from each other and
from the cells that are read. -/
theorem C87_take [DecidableEq V] (n wakeup : Nat) (idx out : Nat → Nat) (sel : V → Nat) (mem : Nat → V) (before : List (Nat × V)) (flag : Nat × V)
    (hinj : ∀ i j, i < n → j < n → out i = out j → i = j)
    (hidx : ∀ i j, i < n → j < n → out i ≠ idx j) (hsel : ∀ i v, i < n → out i ≠ sel v)
    (hu : Unpublished mem before flag) (acts : List Act)
    (hret : (exec { n := (n + 16383) / 16384, skip0 := false, wakeup } (chunkCode n (takeCode idx out sel)) mem before flag acts).ctl.pc 0 = .returned) :
    (∀ i, i < n → (exec { n := (n + 16383) / 16384, skip0 := false, wakeup } (chunkCode n (takeCode idx out sel)) mem before flag acts).mem (out i) =
      lastStored mem (before ++ [flag]) (sel (lastStored mem (before ++ [flag]) (idx i)))) ∧
    ∀ a, (∀ i, i < n → a ≠ out i) → (exec { n := (n + 16383) / 16384, skip0 := false, wakeup } (chunkCode n (takeCode idx out sel)) mem before flag acts).mem a =
      lastStored mem (before ++ [flag]) a := by
  have hd : TasksApart n (takeCode idx out sel) (lastStored mem (before ++ [flag])) := by
    rintro b b' hb hb' hne a ⟨v, ha, _⟩
    simp only [takeCode, seqStores, List.mem_singleton, Prod.mk.injEq] at ha
    obtain ⟨rfl, _⟩ := ha
    simp only [takeCode, seqStores, seqLoads, List.mem_cons, List.not_mem_nil, or_false, Prod.mk.injEq]
    refine ⟨?_, fun w e => hne (hinj b b' hb hb' e.1)⟩
    rintro (e | e)
    · exact hidx b b' hb hb' e
    · exact hsel b _ hb e
  have hw := C87_chunk_work n wakeup (takeCode idx out sel) mem before flag hd hu acts hret
  obtain ⟨e1, e2⟩ := serial_eq (g := { n, skip0 := false, wakeup }) (apart_disjoint hd) n 0 (Nat.zero_add _) (lastStored mem (before ++ [flag])) (fun _ _ _ _ _ => rfl)
  have hch : ∀ i a, Chg (takeCode idx out sel) (lastStored mem (before ++ [flag])) i a ↔
      a = out i ∧ lastStored mem (before ++ [flag]) (sel (lastStored mem (before ++ [flag]) (idx i))) ≠ lastStored mem (before ++ [flag]) (out i) := by
    intro i a
    simp only [Chg, takeCode, seqStores, List.mem_singleton, Prod.mk.injEq]
    constructor
    · rintro ⟨v, ⟨rfl, rfl⟩, h⟩; exact ⟨rfl, h⟩
    · rintro ⟨rfl, h⟩; exact ⟨_, ⟨rfl, rfl⟩, h⟩
  refine ⟨fun i hi => ?_, fun a ha => ?_⟩
  · rw [hw]
    by_cases hc : lastStored mem (before ++ [flag]) (sel (lastStored mem (before ++ [flag]) (idx i))) = lastStored mem (before ++ [flag]) (out i)
    · rw [hc, e2 (out i)]
      intro j _ hj hx
      obtain ⟨h1, h2⟩ := (hch j _).1 hx
      obtain rfl := hinj i j hi hj h1
      exact h2 hc
    · rw [e1 i (Nat.zero_le _) hi (out i) ((hch i _).2 ⟨rfl, hc⟩)]
      simp [takeCode, seqRun]
  · rw [hw, e2 a]
    intro i _ hi hx
    exact ha i hi ((hch i a).1 hx).1

/-- Case: two indices into a table of two numbers, one worker. Cells 0 and 1 are the index, 10 and 11 the table, 12 the default, 20 and 21 the output, 100 publishes
the item. The store of the index 0 into cell 1 is still on its way when the call is made, and the worker's stores reach memory only after the caller waits. -/
def takeMem (a : Nat) : Int := if a = 0 then 1 else if a = 1 then 7 else if a = 10 then 50 else if a = 11 then 60 else if a = 12 then -1 else 0
def takeSel (v : Int) : Nat := if v = 0 then 10 else if v = 1 then 11 else 12
def takeRun : List Act :=
  [.drain 0, .drain 0] ++ List.replicate 9 (.go 1) ++ List.replicate 3 (.go 0) ++ [.drain 1, .go 1, .drain 1] ++ List.replicate 2 (.go 1) ++ List.replicate 2 (.go 0)

theorem takeRun_returned : (exec { n := (2 + 16383) / 16384, skip0 := false, wakeup := 1 } (chunkCode 2 (takeCode id (20 + ·) takeSel)) takeMem [(1, 0)] (100, 1) takeRun).ctl.pc 0 = .returned := by
  decide

example : (exec { n := (2 + 16383) / 16384, skip0 := false, wakeup := 1 } (chunkCode 2 (takeCode id (20 + ·) takeSel)) takeMem [(1, 0)] (100, 1) takeRun).mem 21 = 50 := by
  refine ((C87_take 2 1 id (20 + ·) takeSel takeMem [(1, 0)] (100, 1) ?_ ?_ ?_ ⟨by decide, by decide⟩ takeRun takeRun_returned).1 1 (by decide)).trans (by decide)
  · intro i j _ _ h; exact Nat.add_left_cancel h
  · intro i j _ h; simp only [id]; omega
  · intro i v _; unfold takeSel; split <;> first | omega | (split <;> omega)

/-! ### arange -/

theorem go_stores (ops : Arange.Ops V) (out : Nat → Nat) (f d : V) : ∀ (k i : Nat) (m : Nat → V) (p : Nat × V),
    p ∈ seqStores (arangeCode.go ops out f d i k) m ↔ ∃ j, i ≤ j ∧ j < i + k ∧ p = (out j, ops.elem f j d) := by
  intro k
  induction k with
  | zero => intro i m p; exact ⟨fun h => (by cases h), fun ⟨j, h1, h2, _⟩ => by omega⟩
  | succ k ih =>
    intro i m p
    rw [arangeCode.go, seqStores, List.mem_cons, ih]
    constructor
    · rintro (h | ⟨j, h1, h2, h3⟩)
      · exact ⟨i, Nat.le_refl _, by omega, h⟩
      · exact ⟨j, by omega, by omega, h3⟩
    · rintro ⟨j, h1, h2, h3⟩
      by_cases hj : j = i
      · subst hj; exact Or.inl h3
      · exact Or.inr ⟨j, by omega, by omega, h3⟩

theorem go_loads (ops : Arange.Ops V) (out : Nat → Nat) (f d : V) : ∀ (k i : Nat) (m : Nat → V), seqLoads (arangeCode.go ops out f d i k) m = [] := by
  intro k
  induction k with
  | zero => intro i m; rfl
  | succ k ih => intro i m; exact ih _ _

theorem go_run (ops : Arange.Ops V) (out : Nat → Nat) (f d : V) (n : Nat) (hinj : ∀ i j, i < n → j < n → out i = out j → i = j) : ∀ (k i : Nat) (m : Nat → V) (j : Nat),
    i + k ≤ n → j < i + k → j < i ∧ m (out j) = ops.elem f j d ∨ i ≤ j → seqRun (arangeCode.go ops out f d i k) m (out j) = ops.elem f j d := by
  intro k
  induction k with
  | zero =>
    intro i m j _ hj h
    rcases h with h | h
    · exact h.2
    · omega
  | succ k ih =>
    intro i m j hk hj h
    rw [arangeCode.go, seqRun]
    refine ih (i + 1) _ j (by omega) (by omega) ?_
    by_cases hji : j = i
    · subst hji; exact Or.inl ⟨by omega, if_pos rfl⟩
    · rcases h with h | h
      · refine Or.inl ⟨by omega, ?_⟩
        rw [if_neg (fun e => hji (hinj j i (by omega) (by omega) e))]
        exact h.2
      · exact Or.inr (by omega)

/-- C87 for arange, any element type: if computing elements 0 and 1 gives back the two values numpy has put there, then any number of threads, any schedule and any delay of
the stores leave `first + i * delta` (in the type's arithmetic) in element `i`, although the chunks read elements 0 and 1 while chunk 0 rewrites them; every other cell
holds what the caller last stored there. -/
theorem C87_arange [DecidableEq V] (n wakeup : Nat) (hn : 2 ≤ n) (ops : Arange.Ops V) (out : Nat → Nat) (mem : Nat → V) (before : List (Nat × V)) (flag : Nat × V) (F S : V)
    (hF : lastStored mem (before ++ [flag]) (out 0) = F) (hS : lastStored mem (before ++ [flag]) (out 1) = S)
    (h0 : ops.elem F 0 (ops.sub S F) = F) (h1 : ops.elem F 1 (ops.sub S F) = S)
    (hinj : ∀ i j, i < n → j < n → out i = out j → i = j)
    (hu : Unpublished mem before flag) (acts : List Act)
    (hret : (exec { n := (n + 16383) / 16384, skip0 := false, wakeup } (arangeTask n ops out) mem before flag acts).ctl.pc 0 = .returned) :
    (∀ i, i < n → (exec { n := (n + 16383) / 16384, skip0 := false, wakeup } (arangeTask n ops out) mem before flag acts).mem (out i) = ops.elem F i (ops.sub S F)) ∧
    ∀ a, (∀ i, i < n → a ≠ out i) → (exec { n := (n + 16383) / 16384, skip0 := false, wakeup } (arangeTask n ops out) mem before flag acts).mem a =
      lastStored mem (before ++ [flag]) a := by
  have hC : Work.CHUNK = 16384 := rfl
  have hst : ∀ b, b < (n + 16383) / 16384 → ∀ p, p ∈ seqStores (arangeTask n ops out b) (lastStored mem (before ++ [flag])) ↔
      ∃ j, 16384 * b ≤ j ∧ j < 16384 * b + min 16384 (n - 16384 * b) ∧ p = (out j, ops.elem F j (ops.sub S F)) := by
    intro b hb p
    unfold arangeTask arangeCode
    rw [seqStores, seqStores, go_stores, hF, hS, chunk_len n b hb, hC]
  have hld : ∀ b, seqLoads (arangeTask n ops out b) (lastStored mem (before ++ [flag])) = [out 0, out 1] := by
    intro b
    unfold arangeTask arangeCode
    rw [seqLoads, seqLoads, go_loads]
  have hd : TasksApart ((n + 16383) / 16384) (arangeTask n ops out) (lastStored mem (before ++ [flag])) := by
    rintro b b' hb hb' hne a ⟨v, hv, hva⟩
    obtain ⟨j, h2, h3, he⟩ := (hst b hb _).1 hv
    obtain ⟨rfl, rfl⟩ := Prod.mk.inj he
    have hj0 : j ≠ 0 := by rintro rfl; exact hva (by rw [h0, hF])
    have hj1 : j ≠ 1 := by rintro rfl; exact hva (by rw [h1, hS])
    refine ⟨?_, fun w hw => ?_⟩
    · rw [hld]
      simp only [List.mem_cons, List.not_mem_nil, or_false]
      rintro (e | e)
      · exact hj0 (hinj j 0 (by omega) (by omega) e)
      · exact hj1 (hinj j 1 (by omega) (by omega) e)
    · obtain ⟨j', k2, k3, ke⟩ := (hst b' hb' _).1 hw
      have := hinj j j' (by omega) (by omega) (Prod.mk.inj ke).1
      omega
  have hw := (C87_as_if_serial _ _ mem before flag hd hu acts hret).1
  obtain ⟨e1, e2⟩ := serial_eq (g := { n := (n + 16383) / 16384, skip0 := false, wakeup }) (apart_disjoint hd) ((n + 16383) / 16384) 0 (Nat.zero_add _) (lastStored mem (before ++ [flag])) (fun _ _ _ _ _ => rfl)
  refine ⟨fun i hi => ?_, fun a ha => ?_⟩
  · rw [hw]
    by_cases hc : lastStored mem (before ++ [flag]) (out i) = ops.elem F i (ops.sub S F)
    · rw [← hc]
      refine e2 (out i) ?_
      rintro b _ hb ⟨v, hv, hva⟩
      obtain ⟨j, h2, h3, he⟩ := (hst b hb _).1 hv
      obtain ⟨h4, rfl⟩ := Prod.mk.inj he
      obtain rfl := hinj i j hi (by omega) h4
      exact hva hc.symm
    · have hb : i / 16384 < (n + 16383) / 16384 := by omega
      rw [e1 (i / 16384) (Nat.zero_le _) hb (out i) ⟨_, (hst _ hb _).2 ⟨i, by omega, by omega, rfl⟩, fun e => hc e.symm⟩]
      unfold arangeTask arangeCode
      rw [seqRun, seqRun, hF, hS]
      have hl := chunk_len n (i / 16384) hb
      exact go_run ops out F _ n hinj _ _ _ i (by rw [hl, hC]; omega) (by rw [hl, hC]; omega) (Or.inr (by rw [hC]; omega))
  · rw [hw]
    refine e2 a ?_
    rintro b _ hb ⟨v, hv, _⟩
    obtain ⟨j, h2, h3, he⟩ := (hst b hb _).1 hv
    exact ha j (by omega) (Prod.mk.inj he).1

/-- C87 for arange of every integer type: element `i` is `first + i * step` modulo `2^w`. -/
theorem C87_arange_integers (w : Nat) (hw : w ≤ 64) (signed : Bool) (n wakeup : Nat) (hn : 2 ≤ n) (out : Nat → Nat) (mem : Nat → BitVec w) (before : List (Nat × BitVec w)) (flag : Nat × BitVec w)
    (first step : BitVec w) (hF : lastStored mem (before ++ [flag]) (out 0) = first) (hS : lastStored mem (before ++ [flag]) (out 1) = first + step)
    (hinj : ∀ i j, i < n → j < n → out i = out j → i = j) (hu : Unpublished mem before flag) (acts : List Act)
    (hret : (exec { n := (n + 16383) / 16384, skip0 := false, wakeup } (arangeTask n (Arange.intOps w signed) out) mem before flag acts).ctl.pc 0 = .returned) (i : Nat) (hi : i < n) :
    (exec { n := (n + 16383) / 16384, skip0 := false, wakeup } (arangeTask n (Arange.intOps w signed) out) mem before flag acts).mem (out i) = first + BitVec.ofNat w i * step := by
  have hsub : (Arange.intOps w signed).sub (first + step) first = step := by
    show first + step - first = step
    rw [BitVec.add_comm, BitVec.add_sub_cancel]
  rw [(C87_arange n wakeup hn (Arange.intOps w signed) out mem before flag first (first + step) hF hS (by rw [hsub, Arange.int_elem hw]; simp)
    (by rw [hsub, Arange.int_elem hw]; simp) hinj hu acts hret).1 i hi, hsub, Arange.int_elem hw]

/-- Case: arange(3, .., 2) of four bytes in cells 0 to 3, one worker; the store of the second value is still on its way when the call is made. -/
def arangeMem (a : Nat) : BitVec 8 := if a = 0 then 3#8 else 0#8
def arangeRun : List Act := (List.replicate 20 [Act.go 1, .drain 0, .go 0, .drain 1]).flatten

theorem arangeRun_returned : (exec { n := (4 + 16383) / 16384, skip0 := false, wakeup := 1 } (arangeTask 4 (Arange.intOps 8 true) id) arangeMem [(1, 5#8)] (100, 1#8) arangeRun).ctl.pc 0 = .returned := by
  decide +kernel

example : (exec { n := (4 + 16383) / 16384, skip0 := false, wakeup := 1 } (arangeTask 4 (Arange.intOps 8 true) id) arangeMem [(1, 5#8)] (100, 1#8) arangeRun).mem (id 3) = 3#8 + BitVec.ofNat 8 3 * 2#8 :=
  C87_arange_integers 8 (by decide) true 4 1 (by decide) id arangeMem [(1, 5#8)] (100, 1#8) 3#8 2#8 (by decide +kernel) (by decide +kernel) (fun i j _ _ h => h) ⟨by decide, by decide⟩ arangeRun arangeRun_returned 3 (by decide)

end Pnumpy.Props
