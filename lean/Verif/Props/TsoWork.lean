import Verif.Proofs.TsoKernel
import Verif.Props.TsoCounter
import Verif.Props.Dispatch
/-
Property theorems C89: threaded element-wise calls with the kernels pnumpy actually runs, on a processor with store buffers.
-/
namespace Pnumpy.Props
open Spec Work Elem Dispatch Pnumpy.TsoWork
open Pnumpy.Tso (load load_eq load_not_mem applyAll applyAll_not_mem At At.inj At.unique At.not_done At.lt work_stutter)
open Pnumpy.TsoCounter (Prog seqRun seqLoads seqStores serial Chg Disjoint serial_eq run_other)

variable {V : Type}

/-- C89 for any code of the blocks: whatever the length, the number of threads, the code of the blocks, the interleaving (down to single loads and stores), the
delay of every store, and whatever stores of the caller were still on their way when it made the call: when the call has returned, memory is exactly what it would be
if one thread had done the blocks one after the other on what the caller saw when it made the call, and no store of any thread is still on its way. The blocks must
keep out of each other's way. -/
theorem C89_as_if_serial [DecidableEq V] (n : Nat) (req : Int) (maxWakeup zz : Nat) (prog : Nat → Prog V) (mem : Nat → V) (before : List (Nat × V)) (flag : Nat × V)
    (hd : TasksApart ((n + 16383) / 16384) prog (lastStored mem (before ++ [flag]))) (hu : Unpublished mem before flag) (acts : List Act)
    (hret : (exec (ufuncItem n req maxWakeup zz) prog mem before flag acts).ctl.pc 0 = .returned) :
    (∀ a, (exec (ufuncItem n req maxWakeup zz) prog mem before flag acts).mem a = serial prog 0 ((n + 16383) / 16384) (lastStored mem (before ++ [flag])) a) ∧
    ∀ c, (exec (ufuncItem n req maxWakeup zz) prog mem before flag acts).buf c = [] := by
  have wf := setup_wf n req maxWakeup CHUNK true zz
  have hbl : (ufuncItem n req maxWakeup zz).blockLast = (n + 16383) / 16384 := blockLast_generic n req maxWakeup zz
  rw [← hbl] at hd ⊢
  have hd' : Disjoint (ufuncItem n req maxWakeup zz).blockLast prog (applyAll mem (before ++ [flag])) := by rw [applyAll_lastStored]; exact apart_disjoint hd
  have h2 := inv2_exec wf hd' hu.2 hu.1 acts
  generalize exec (ufuncItem n req maxWakeup zz) prog mem before flag acts = s at *
  rcases h2 with h | h
  · rw [h.ctl] at hret; cases hret
  rw [applyAll_lastStored] at h
  have hfull : ∀ b, b < (ufuncItem n req maxWakeup zz).blockLast → b ∈ s.ctl.doneL := by
    have hc := h.work.retDone 0 hret
    rw [← h.work.doneLen] at hc
    exact nodup_full h.work.doneNodup (fun b hb => Inv.claimed_lt wf (h.work.logClaimed b (h.work.doneLog b hb))) hc
  refine ⟨fun a => ?_, fun c => h.free c fun b hb => At.not_done h.work hb (hfull b (At.lt wf h.work hb))⟩
  obtain ⟨e1, e2⟩ := serial_eq (g := { n := (ufuncItem n req maxWakeup zz).blockLast, skip0 := false, wakeup := 0 }) (apart_disjoint hd) (ufuncItem n req maxWakeup zz).blockLast 0
    (Nat.zero_add _) (lastStored mem (before ++ [flag])) (fun _ _ _ _ _ => rfl)
  by_cases hex : ∃ b, b < (ufuncItem n req maxWakeup zz).blockLast ∧ Chg prog (lastStored mem (before ++ [flag])) b a
  · obtain ⟨b, hb, ha⟩ := hex
    rw [e1 b (Nat.zero_le _) hb a ha]
    exact h.fin b (hfull b hb) a ha
  · have hex' : ∀ b, b < (ufuncItem n req maxWakeup zz).blockLast → ¬ Chg prog (lastStored mem (before ++ [flag])) b a := fun b hb ha => hex ⟨b, hb, ha⟩
    rw [e2 a (fun b _ hb => hex' b hb)]
    exact h.rest a hex'

/-- C89, at every moment of the call: a worker that has entered the call sees in every cell that no block stores to what the caller last stored there - the input
arrays, the fields of the work item, the callback argument. -/
theorem C89_published [DecidableEq V] (n : Nat) (req : Int) (maxWakeup zz : Nat) (prog : Nat → Prog V) (mem : Nat → V) (before : List (Nat × V)) (flag : Nat × V)
    (hd : TasksApart ((n + 16383) / 16384) prog (lastStored mem (before ++ [flag]))) (hu : Unpublished mem before flag) (acts : List Act) (c : Nat) (hc : 1 ≤ c)
    (hin : (exec (ufuncItem n req maxWakeup zz) prog mem before flag acts).ctl.pc c ≠ .idle) (a : Nat)
    (ha : ∀ b v, b < (n + 16383) / 16384 → (a, v) ∉ seqStores (prog b) (lastStored mem (before ++ [flag]))) :
    load (exec (ufuncItem n req maxWakeup zz) prog mem before flag acts).mem ((exec (ufuncItem n req maxWakeup zz) prog mem before flag acts).buf c) a =
      lastStored mem (before ++ [flag]) a := by
  have wf := setup_wf n req maxWakeup CHUNK true zz
  have hbl : (ufuncItem n req maxWakeup zz).blockLast = (n + 16383) / 16384 := blockLast_generic n req maxWakeup zz
  rw [← hbl] at hd ha
  have hd' : Disjoint (ufuncItem n req maxWakeup zz).blockLast prog (applyAll mem (before ++ [flag])) := by rw [applyAll_lastStored]; exact apart_disjoint hd
  have h2 := inv2_exec wf hd' hu.2 hu.1 acts
  generalize exec (ufuncItem n req maxWakeup zz) prog mem before flag acts = s at *
  rcases h2 with h | h
  · rw [h.ctl] at hin
    exact absurd (if_neg (by omega)) hin
  · rw [applyAll_lastStored] at h
    rw [load_not_mem, h.rest a (fun b hb ⟨v, hv, _⟩ => ha b v hb hv)]
    intro p hp he
    by_cases hat : ∃ b, At (s.ctl.pc c) b
    · obtain ⟨b, hb⟩ := hat
      obtain ⟨_, _, _, _, e4, _⟩ := h.busy c b hb
      exact ha b p.2 (At.lt wf h.work hb) (by rw [← he]; exact e4 p hp)
    · rw [h.free c (fun b hb => hat ⟨b, hb⟩)] at hp; cases hp

/-- C89, at every moment of the call once the item is visible: a cell holds in memory what the caller last stored there, or a value one of the blocks stores there. -/
theorem C89_old_or_stored [DecidableEq V] (n : Nat) (req : Int) (maxWakeup zz : Nat) (prog : Nat → Prog V) (mem : Nat → V) (before : List (Nat × V)) (flag : Nat × V)
    (hd : TasksApart ((n + 16383) / 16384) prog (lastStored mem (before ++ [flag]))) (hu : Unpublished mem before flag)
    (hflag : ∀ b v, b < (n + 16383) / 16384 → (flag.1, v) ∉ seqStores (prog b) (lastStored mem (before ++ [flag]))) (acts : List Act)
    (hp : (exec (ufuncItem n req maxWakeup zz) prog mem before flag acts).mem flag.1 = flag.2) (a : Nat) :
    (exec (ufuncItem n req maxWakeup zz) prog mem before flag acts).mem a = lastStored mem (before ++ [flag]) a ∨
    ∃ b, b < (n + 16383) / 16384 ∧ (a, (exec (ufuncItem n req maxWakeup zz) prog mem before flag acts).mem a) ∈ seqStores (prog b) (lastStored mem (before ++ [flag])) := by
  have wf := setup_wf n req maxWakeup CHUNK true zz
  have hbl : (ufuncItem n req maxWakeup zz).blockLast = (n + 16383) / 16384 := blockLast_generic n req maxWakeup zz
  rw [← hbl] at hd hflag ⊢
  generalize hit : ufuncItem n req maxWakeup zz = it at *
  have hd' : Disjoint it.blockLast prog (applyAll mem (before ++ [flag])) := by rw [applyAll_lastStored]; exact apart_disjoint hd
  have wf' : WF it := by rw [← hit]; exact wf
  have key : ∀ (acts : List Act) (s : St V), (Inv2 it prog mem before flag s ∧
      (s.mem flag.1 = flag.2 → ∀ a, s.mem a = lastStored mem (before ++ [flag]) a ∨ ∃ b, b < it.blockLast ∧ (a, s.mem a) ∈ seqStores (prog b) (lastStored mem (before ++ [flag])))) →
      ((acts.foldl (step it prog flag) s).mem flag.1 = flag.2 → ∀ a, (acts.foldl (step it prog flag) s).mem a = lastStored mem (before ++ [flag]) a ∨
        ∃ b, b < it.blockLast ∧ (a, (acts.foldl (step it prog flag) s).mem a) ∈ seqStores (prog b) (lastStored mem (before ++ [flag]))) := by
    intro acts
    induction acts with
    | nil => intro s h; exact h.2
    | cons x acts ih =>
      intro s h
      have hn := inv2_step wf' hd' hu.2 hu.1 h.1 x
      refine ih _ ⟨hn, fun hf a => ?_⟩
      have hgo : ∀ c, x = .go c → (step it prog flag s x).mem = s.mem := by
        rintro c rfl
        unfold TsoWork.step
        simp only
        split
        · rfl
        · split
          · split <;> rfl
          · split <;> rfl
          · split <;> rfl
          · split <;> rfl
      rcases h.1 with hA | hB
      · rcases hn with hA' | hB'
        · exfalso
          obtain ⟨done, left, h1, h2, h3⟩ := hA'.buf
          rw [h3, applyAll_not_mem (fun p hp => hu.2 p (by rw [h1]; exact List.mem_append.2 (Or.inl hp)))] at hf
          exact hu.1 hf
        · cases x with
          | go c =>
            exfalso
            rw [hgo c rfl] at hf
            obtain ⟨done, left, h1, h2, h3⟩ := hA.buf
            rw [h3, applyAll_not_mem (fun p hp => hu.2 p (by rw [h1]; exact List.mem_append.2 (Or.inl hp)))] at hf
            exact hu.1 hf
          | drain c =>
            rw [applyAll_lastStored] at hB'
            have hctl : (step it prog flag s (.drain c)).ctl = Work.init := by
              rw [step_ctl, hA.ctl]; exact work_stutter _ _ (Nat.lt_succ_self _)
            refine Or.inl ?_
            by_cases hch : ∃ b, b < it.blockLast ∧ Chg prog (lastStored mem (before ++ [flag])) b a
            · obtain ⟨b, hb, hc⟩ := hch
              exact hB'.fresh b hb (by rw [hctl]; intro h; cases h) (fun d => by rw [hctl]; exact init_not_at d b) a hc
            · exact hB'.rest a (fun b hb hc => hch ⟨b, hb, hc⟩)
      · rw [applyAll_lastStored] at hB
        have hold := h.2 (by
          have : s.mem flag.1 = lastStored mem (before ++ [flag]) flag.1 := hB.rest _ (fun b hb ⟨v, hv, _⟩ => hflag b v hb hv)
          rw [this]
          unfold lastStored
          simp)
        cases x with
        | go c => rw [hgo c rfl]; exact hold a
        | drain c =>
          unfold TsoWork.step
          simp only
          split
          · exact hold a
          · rename_i y v l hb
            have hat : ∃ b, At (s.ctl.pc c) b := by
              refine Classical.byContradiction fun hno => ?_
              rw [hB.free c (fun b hb' => hno ⟨b, hb'⟩)] at hb
              cases hb
            obtain ⟨b, hat⟩ := hat
            obtain ⟨_, _, _, _, e4, _⟩ := hB.busy c b hat
            have hm := e4 (y, v) (by rw [hb]; exact List.mem_cons_self)
            by_cases hay : a = y
            · subst hay
              refine Or.inr ⟨b, At.lt wf' hB.work hat, ?_⟩
              simp only [if_true]
              exact hm
            · simp only [if_neg hay]; exact hold a
  exact key acts _ ⟨Or.inl ⟨rfl, ⟨[], before, rfl, by simp [TsoWork.init], rfl⟩, fun _ hc => if_neg hc⟩, fun h => absurd h hu.1⟩ hp a

/-- The fairness the call needs: the caller keeps being scheduled, no thread is suspended for ever in the middle of a block, no store stays in its buffer
for ever. -/
structure WorkFair [DecidableEq V] (it : Item) (prog : Nat → Prog V) (mem : Nat → V) (before : List (Nat × V)) (flag : Nat × V) (σ : Nat → Act) : Prop where
  caller : ∀ t, ∃ t', t ≤ t' ∧ σ t' = .go 0
  busy : ∀ t c, ((trace it prog mem before flag σ t).ctl.pc c).busy = true → ∃ t', t ≤ t' ∧ σ t' = .go c
  drains : ∀ t c, (trace it prog mem before flag σ t).buf c ≠ [] → ∃ t', t ≤ t' ∧ σ t' = .drain c

/-- C89: the call returns in every fair run, whatever the code of the blocks; workers may be starved otherwise. -/
theorem C89_returns [DecidableEq V] (n : Nat) (req : Int) (maxWakeup zz : Nat) (prog : Nat → Prog V) (mem : Nat → V) (before : List (Nat × V)) (flag : Nat × V)
    (σ : Nat → Act) (hf : WorkFair (ufuncItem n req maxWakeup zz) prog mem before flag σ) :
    ∃ t, (trace (ufuncItem n req maxWakeup zz) prog mem before flag σ t).ctl.pc 0 = .returned := by
  have wf := setup_wf n req maxWakeup CHUNK true zz
  have h : ∃ t, (Work.trace (ufuncItem n req maxWakeup zz) (fun t => who (ufuncItem n req maxWakeup zz) flag (trace (ufuncItem n req maxWakeup zz) prog mem before flag σ t) (σ t)) t).pc 0 = .returned := by
    refine live wf ⟨fun t => ?_, fun t c hb => ?_⟩
    · refine moves (Nat.zero_le _) rfl ?_ (fun u _ _ => hf.caller u) (fun u hu => hf.drains u 0 hu)
      rw [trace_ctl]
      exact (inv_trace wf _ t).mainNotIdle
    · have hb' : ((trace (ufuncItem n req maxWakeup zz) prog mem before flag σ t).ctl.pc c).busy = true := by rw [trace_ctl]; exact hb
      have hcw : c ≤ (ufuncItem n req maxWakeup zz).wakeup := by
        refine Nat.le_of_not_lt fun hlt => ?_
        rw [(inv_trace wf _ t).coreRange c hlt] at hb
        cases hb
      refine moves hcw rfl ?_ (fun u _ he => hf.busy u c (by rw [he]; exact hb')) (fun u hu => hf.drains u c hu)
      intro he; rw [he] at hb'; cases hb'
  obtain ⟨t, ht⟩ := h
  exact ⟨t, by rw [trace_ctl]; exact ht⟩

theorem exec_eq_traceW [DecidableEq V] (it : Item) (prog : Nat → Prog V) (mem : Nat → V) (before : List (Nat × V)) (flag : Nat × V) (σ : Nat → Act) (t : Nat) :
    exec it prog mem before flag ((List.range t).map σ) = trace it prog mem before flag σ t := by
  induction t with
  | zero => rfl
  | succ t ih =>
    rw [List.range_succ, List.map_append, TsoWork.trace, ← ih]
    unfold TsoWork.exec
    rw [List.foldl_append]; rfl

theorem outside_bufW [DecidableEq V] {it : Item} {prog : Nat → Prog V} {mem : Nat → V} {before : List (Nat × V)} {flag : Nat × V} {σ : Nat → Act} (wf : WF it) (t c : Nat)
    (hlt : it.wakeup < c) : (trace it prog mem before flag σ t).buf c = [] := by
  induction t with
  | zero => exact if_neg (by omega)
  | succ t ih =>
    have hidle : (trace it prog mem before flag σ t).ctl.pc c = .idle := by rw [trace_ctl]; exact (inv_trace wf _ t).coreRange c hlt
    rcases step_buf (it := it) (prog := prog) (flag := flag) (trace it prog mem before flag σ t) (σ t) c (by rw [hidle]; intro b h; cases h) with h | ⟨_, h⟩
    · rw [TsoWork.trace, h, ih]
    · rw [TsoWork.trace, h, ih]; rfl

/-- The caller, worker 1 and their store buffers in turns. -/
def workTurns (t : Nat) : Act := if t % 4 = 0 then .go 0 else if t % 4 = 1 then .go 1 else if t % 4 = 2 then .drain 0 else .drain 1

theorem workTurns_fair [DecidableEq V] {it : Item} (wf : WF it) (h1 : it.wakeup = 1) (prog : Nat → Prog V) (mem : Nat → V) (before : List (Nat × V)) (flag : Nat × V) :
    WorkFair it prog mem before flag workTurns := by
  have h4 : ∀ t r, r < 4 → ∃ t', t ≤ t' ∧ t' % 4 = r := fun t r hr => ⟨4 * t + r, by omega, by omega⟩
  have hgo : ∀ c, c ≤ 1 → ∀ t, ∃ t', t ≤ t' ∧ workTurns t' = .go c := by
    intro c hc t
    obtain ⟨t', h1, h2⟩ := h4 t c (by omega)
    refine ⟨t', h1, ?_⟩
    unfold workTurns
    rcases (by omega : c = 0 ∨ c = 1) with rfl | rfl <;> simp [h2]
  refine ⟨hgo 0 (by decide), fun t c hb => ?_, fun t c hb => ?_⟩
  · by_cases hc : c ≤ 1
    · exact hgo c hc t
    · rw [trace_ctl, (inv_trace wf _ t).coreRange c (by omega)] at hb; cases hb
  · by_cases hc : c ≤ 1
    · obtain ⟨t', h1, h2⟩ := h4 t (c + 2) (by omega)
      refine ⟨t', h1, ?_⟩
      unfold workTurns
      rcases (by omega : c = 0 ∨ c = 1) with rfl | rfl <;> simp [h2]
    · exact absurd (outside_bufW wf t c (by omega)) hb

/-- Case: any call with one worker under that schedule. -/
example (n : Nat) (prog : Nat → Prog Int) (mem : Nat → Int) (before : List (Nat × Int)) (flag : Nat × Int) :
    ∃ t, (trace (ufuncItem n 0 1 0) prog mem before flag workTurns t).ctl.pc 0 = .returned :=
  C89_returns n 0 1 0 prog mem before flag workTurns (workTurns_fair (setup_wf n 0 1 CHUNK true 0) rfl prog mem before flag)

/-! ### The stubs' calls -/

/-- All operand elements are at non-negative addresses. -/
def AddressesOk (n : Nat) (A : Args) : Prop :=
  ∀ i : Nat, i < n → 0 ≤ A.p1 + A.s1 * i ∧ 0 ≤ A.p2 + A.s2 * i ∧ 0 ≤ A.po + A.so * i

theorem block_elem {n : Nat} {req : Int} {mw zz b l : Nat} (hb : b < (n + 16383) / 16384) (hl : l < (ufuncItem n req mw zz).blockLen b) :
    16384 * b + l < n ∧ (16384 * b + l) / 16384 = b := by
  have := Tso.elem (n := n) (req := req) (mw := mw) (zz := zz) (b := b) (k := l) (by rw [blockLast_generic]; exact hb) hl
  exact ⟨this.1, this.2.1⟩

section
variable {st : Stub} {e : Entry} {w : World} {A : Args} {n : Nat} {fNew fOld : V → V → V}

/-- The item of the call. -/
abbrev stubItem (e : Entry) (w : World) (n : Nat) : Item := ufuncItem n e.maxThreads w.maxWakeup w.zigzag

/-- Which element a block's accesses belong to. -/
theorem block_accesses (hf : Fits st e fNew A) {b : Nat} (hb : b < (n + 16383) / 16384) :
    (∀ l x y, Elem.Acc.load l x y ∈ implProg (st.chosen e w A) (A.at ((stubItem e w n).blockSize * b)) ((stubItem e w n).blockLen b) →
      ∃ i : Nat, i < n ∧ i / 16384 = b ∧ (x = A.p1 + A.s1 * i ∨ x = A.p2 + A.s2 * i) ∧ (y = A.p1 + A.s1 * i ∨ y = A.p2 + A.s2 * i)) ∧
    ∀ l a, Elem.Acc.store l a ∈ implProg (st.chosen e w A) (A.at ((stubItem e w n).blockSize * b)) ((stubItem e w n).blockLen b) →
      ∃ i : Nat, i < n ∧ i / 16384 = b ∧ a = A.po + A.so * i := by
  have hc := impl_cover (w := w) (fOld := fNew) hf ((stubItem e w n).blockSize * b) ((stubItem e w n).blockLen b)
  have hbs : (stubItem e w n).blockSize = 16384 := rfl
  refine ⟨fun l x y h => ?_, fun l a h => ?_⟩
  · obtain ⟨g1, g2⟩ := block_elem hb (hc.bound _ h).2
    obtain ⟨_, k2, k3⟩ := hc.loads l x y h
    refine ⟨16384 * b + l, g1, g2, ?_, ?_⟩
    · have e1 := strided_at A.p1 A.s1 (16384 * b) l
      have e2 := strided_at A.p2 A.s2 (16384 * b) l
      simp only [Args.at, hbs] at k2
      rw [e1, e2] at k2; exact k2
    · have e1 := strided_at A.p1 A.s1 (16384 * b) l
      have e2 := strided_at A.p2 A.s2 (16384 * b) l
      simp only [Args.at, hbs] at k3
      rw [e1, e2] at k3; exact k3
  · obtain ⟨g1, g2⟩ := block_elem hb (hc.bound _ h).2
    have k := hc.stores l a h
    refine ⟨16384 * b + l, g1, g2, ?_⟩
    have e1 := strided_at A.po A.so (16384 * b) l
    simp only [Args.at, hbs] at k
    rw [e1] at k; exact k

theorem block_nonneg (hf : Fits st e fNew A) (ha : AddressesOk n A) {b : Nat} (hb : b < (n + 16383) / 16384) :
    NonNeg (implProg (st.chosen e w A) (A.at ((stubItem e w n).blockSize * b)) ((stubItem e w n).blockLen b)) := by
  obtain ⟨h1, h2⟩ := block_accesses (w := w) (n := n) hf hb
  refine ⟨fun l x y h => ?_, fun l a h => ?_⟩
  · obtain ⟨i, hi, _, hx, hy⟩ := h1 l x y h
    obtain ⟨g1, g2, _⟩ := ha i hi
    exact ⟨hx.elim (fun e => by rw [e]; exact g1) (fun e => by rw [e]; exact g2), hy.elim (fun e => by rw [e]; exact g1) (fun e => by rw [e]; exact g2)⟩
  · obtain ⟨i, hi, _, rfl⟩ := h2 l a h
    exact (ha i hi).2.2

theorem safe_of (hs : e.kernel ≠ some .cmpInt8 ∧ SafeOverlap n A.p1 A.s1 A.p2 A.s2 A.po A.so ∨ NoOverlap n A.p1 A.s1 A.p2 A.s2 A.po A.so) :
    SafeOverlap n A.p1 A.s1 A.p2 A.s2 A.po A.so := by
  rcases hs with ⟨_, h⟩ | h
  · exact h
  · intro i j hi hj hne
    exact ⟨(h i j hi hj).1 hne, (h i j hi hj).2⟩

theorem toNat_ne {a b : Int} (ha : 0 ≤ a) (hb : 0 ≤ b) (h : a ≠ b) : a.toNat ≠ b.toNat := by omega

theorem stub_apart (hf : Fits st e fNew A) (ha : AddressesOk n A) (hs : SafeOverlap n A.p1 A.s1 A.p2 A.s2 A.po A.so) (f : V → V → V) (M : Nat → V) :
    TasksApart ((n + 16383) / 16384) (blockCode f (st.chosen e w A) A (stubItem e w n)) M := by
  rintro b b' hb hb' hne a ⟨v, hv, _⟩
  obtain ⟨l, y, h1, rfl⟩ := code_stores f _ _ _ _ _ hv
  obtain ⟨i, hi, hib, rfl⟩ := (block_accesses (w := w) (n := n) hf hb).2 l y h1
  refine ⟨fun hx => ?_, fun v' hx => ?_⟩
  · obtain ⟨l', x', y', h2, h3⟩ := code_loads f _ _ _ _ hx
    obtain ⟨j, hj, hjb, hx', hy'⟩ := (block_accesses (w := w) (n := n) hf hb').1 l' x' y' h2
    have hij : i ≠ j := fun e => hne (by rw [← hib, ← hjb, e])
    obtain ⟨_, g1, g2⟩ := hs i j hi hj hij
    obtain ⟨q1, q2, _⟩ := ha j hj
    have q3 := (ha i hi).2.2
    rcases h3 with h3 | h3
    · rcases hx' with hx' | hx' <;> rw [hx'] at h3
      · exact toNat_ne q3 q1 g1 h3
      · exact toNat_ne q3 q2 g2 h3
    · rcases hy' with hy' | hy' <;> rw [hy'] at h3
      · exact toNat_ne q3 q1 g1 h3
      · exact toNat_ne q3 q2 g2 h3
  · obtain ⟨l', y', h2, h3⟩ := code_stores f _ _ _ _ _ hx
    obtain ⟨j, hj, hjb, hx'⟩ := (block_accesses (w := w) (n := n) hf hb').2 l' y' h2
    have hij : i ≠ j := fun e => hne (by rw [← hib, ← hjb, e])
    rw [hx'] at h3
    exact toNat_ne (ha i hi).2.2 (ha j hj).2.2 (hs i j hi hj hij).1 h3

theorem shift_addr (p s : Int) (b i : Nat) : p + s * ((16384 * b : Nat) : Int) + s * (i : Int) = p + s * ((16384 * b + i : Nat) : Int) := by
  rw [Int.natCast_add, Int.mul_add, Int.add_assoc]

/-- The overlap conditions for one block. -/
theorem block_safe (hs : e.kernel ≠ some .cmpInt8 ∧ SafeOverlap n A.p1 A.s1 A.p2 A.s2 A.po A.so ∨ NoOverlap n A.p1 A.s1 A.p2 A.s2 A.po A.so) {b : Nat}
    (hb : b < (n + 16383) / 16384) (B : Args) (hB : B = A.at (16384 * b)) :
    e.kernel ≠ some .cmpInt8 ∧ SafeOverlap ((stubItem e w n).blockLen b) B.p1 B.s1 B.p2 B.s2 B.po B.so ∨
      NoOverlap ((stubItem e w n).blockLen b) B.p1 B.s1 B.p2 B.s2 B.po B.so := by
  subst hB
  rcases hs with ⟨h8, hs⟩ | hs
  · refine Or.inl ⟨h8, fun i j hi hj hne => ?_⟩
    simp only [Args.at, shift_addr]
    exact hs _ _ (block_elem hb hi).1 (block_elem hb hj).1 (by omega)
  · refine Or.inr fun i j hi hj => ?_
    simp only [Args.at, shift_addr]
    have := hs _ _ (block_elem hb hi).1 (block_elem hb hj).1
    exact ⟨fun hne => this.1 (by omega), this.2⟩

/-- What one block's code, executed alone, leaves in memory. -/
theorem block_result (hf : Fits st e fNew A) (ha : AddressesOk n A)
    (hs : e.kernel ≠ some .cmpInt8 ∧ SafeOverlap n A.p1 A.s1 A.p2 A.s2 A.po A.so ∨ NoOverlap n A.p1 A.s1 A.p2 A.s2 A.po A.so) (M : Nat → V) {i : Nat} (hi : i < n) :
    seqRun (blockCode (usedOp st e w A fNew fOld) (st.chosen e w A) A (stubItem e w n) (i / 16384)) M (A.po + A.so * i).toNat =
      usedOp st e w A fNew fOld (M (A.p1 + A.s1 * i).toNat) (M (A.p2 + A.s2 * i).toNat) := by
  have hb : i / 16384 < (n + 16383) / 16384 := by omega
  have hbs := block_safe (w := w) hs hb _ rfl
  have hk := impl_cover (w := w) (fOld := fOld) hf (16384 * (i / 16384)) ((stubItem e w n).blockLen (i / 16384))
  have hout : ∀ x y : Nat, x < (stubItem e w n).blockLen (i / 16384) → y < (stubItem e w n).blockLen (i / 16384) → x ≠ y →
      (A.at (16384 * (i / 16384))).po + (A.at (16384 * (i / 16384))).so * x ≠ (A.at (16384 * (i / 16384))).po + (A.at (16384 * (i / 16384))).so * y := by
    rcases hbs with ⟨_, h⟩ | h
    · exact outDistinct_of_safe h
    · exact outDistinct_of_no h
  obtain ⟨m', h1, h2⟩ := exec_single (fun a : Int => M a.toNat) hk hout (by
    rcases hbs with ⟨h8, h⟩ | h
    · exact Or.inl ⟨impl_seg (w := w) (fOld := fOld) hf h8 _ _, h⟩
    · exact Or.inr h)
  unfold runKernel runMem at h1
  obtain ⟨s', hr, hm⟩ := Option.map_eq_some_iff.1 h1
  have hrun := code_run (usedOp st e w A fNew fOld) _ _ s' (fun _ => none) M (block_nonneg (w := w) hf ha hb) ⟨fun a => by simp, fun l => rfl⟩ hr
  have hl : i % 16384 < (stubItem e w n).blockLen (i / 16384) := Tso.elem_inv hi
  have hr1 := h2.1 (i % 16384) hl
  simp only [Args.at, shift_addr, show 16384 * (i / 16384) + i % 16384 = i by omega] at hr1
  have := hrun (A.po + A.so * i).toNat
  rw [Int.toNat_of_nonneg (ha i hi).2.2, hm, hr1] at this
  exact this

/-- C89 for the stubs' calls: numpy calls a hooked element-wise ufunc on `n` elements, and the work is split. Whatever kernel runs (or numpy's own loop), the length, the
strides, the number of threads, the interleaving of the threads' single loads and stores, the delay of every store, and whatever stores of the caller were still on
their way when it made the call: when the call has returned, every output element holds in memory the operation applied to what the caller saw in the input elements
when it made the call; every other cell holds what the caller last stored there; and no store of any thread is still on its way. An output element may be an input
element of the same position only (for the 8-bit comparison: none). -/
theorem C89_call_result [DecidableEq V] (st : Stub) (e : Entry) (w : World) (A : Args) (n : Nat) (fNew fOld : V → V → V) (hf : Fits st e fNew A) (ha : AddressesOk n A)
    (hs : e.kernel ≠ some .cmpInt8 ∧ SafeOverlap n A.p1 A.s1 A.p2 A.s2 A.po A.so ∨ NoOverlap n A.p1 A.s1 A.p2 A.s2 A.po A.so)
    (mem : Nat → V) (before : List (Nat × V)) (flag : Nat × V) (hu : Unpublished mem before flag) (acts : List Act)
    (hret : (exec (stubItem e w n) (blockCode (usedOp st e w A fNew fOld) (st.chosen e w A) A (stubItem e w n)) mem before flag acts).ctl.pc 0 = .returned) :
    (∀ i : Nat, i < n →
      (exec (stubItem e w n) (blockCode (usedOp st e w A fNew fOld) (st.chosen e w A) A (stubItem e w n)) mem before flag acts).mem (A.po + A.so * i).toNat =
        usedOp st e w A fNew fOld (lastStored mem (before ++ [flag]) (A.p1 + A.s1 * i).toNat) (lastStored mem (before ++ [flag]) (A.p2 + A.s2 * i).toNat)) ∧
    (∀ a : Nat, (∀ i : Nat, i < n → (a : Int) ≠ A.po + A.so * i) →
      (exec (stubItem e w n) (blockCode (usedOp st e w A fNew fOld) (st.chosen e w A) A (stubItem e w n)) mem before flag acts).mem a = lastStored mem (before ++ [flag]) a) ∧
    ∀ c, (exec (stubItem e w n) (blockCode (usedOp st e w A fNew fOld) (st.chosen e w A) A (stubItem e w n)) mem before flag acts).buf c = [] := by
  have hap := stub_apart (w := w) hf ha (safe_of hs) (usedOp st e w A fNew fOld) (lastStored mem (before ++ [flag]))
  obtain ⟨h1, h2⟩ := C89_as_if_serial n _ _ _ _ mem before flag hap hu acts hret
  obtain ⟨e1, e2⟩ := serial_eq (g := { n := (n + 16383) / 16384, skip0 := false, wakeup := 0 }) (apart_disjoint hap) ((n + 16383) / 16384) 0 (Nat.zero_add _)
    (lastStored mem (before ++ [flag])) (fun _ _ _ _ _ => rfl)
  refine ⟨fun i hi => ?_, fun a hna => ?_, h2⟩
  · rw [h1]
    have hb : i / 16384 < (n + 16383) / 16384 := by omega
    rw [← block_result (w := w) (fOld := fOld) hf ha hs _ hi]
    by_cases hc : Chg (blockCode (usedOp st e w A fNew fOld) (st.chosen e w A) A (stubItem e w n)) (lastStored mem (before ++ [flag])) (i / 16384) (A.po + A.so * i).toNat
    · exact e1 _ (Nat.zero_le _) hb _ hc
    · rw [e2]
      · exact (run_other (fun _ _ => rfl) hc).symm
      · rintro b' _ hb' hc'
        by_cases hbb : b' = i / 16384
        · subst hbb; exact hc hc'
        · obtain ⟨v, hv, _⟩ := hc'
          obtain ⟨l, y, k1, k2⟩ := code_stores _ _ _ _ _ _ hv
          obtain ⟨j, hj, hjb, rfl⟩ := (block_accesses (w := w) (n := n) hf hb').2 l y k1
          have hij : i ≠ j := fun e => hbb (by rw [e]; exact hjb.symm)
          exact toNat_ne (ha i hi).2.2 (ha j hj).2.2 (safe_of hs i j hi hj hij).1 k2
  · rw [h1, e2]
    rintro b _ hb ⟨v, hv, _⟩
    obtain ⟨l, y, k1, k2⟩ := code_stores _ _ _ _ _ _ hv
    obtain ⟨i, hi, _, rfl⟩ := (block_accesses (w := w) (n := n) hf hb).2 l y k1
    exact hna i hi (by rw [k2]; exact Int.toNat_of_nonneg (ha i hi).2.2)

/-- C89: what the split call leaves in memory on such a machine is what the same call leaves on a machine without store buffers under
any other threading settings (threading switched off, say), everywhere. -/
theorem C89_same_as_unthreaded [DecidableEq V] (st : Stub) (e : Entry) (w w' : World) (hat : w'.atop = w.atop) (A : Args) (n : Nat) (fNew fOld : V → V → V)
    (hf : Fits st e fNew A) (ha : AddressesOk n A)
    (hs : e.kernel ≠ some .cmpInt8 ∧ SafeOverlap n A.p1 A.s1 A.p2 A.s2 A.po A.so ∨ NoOverlap n A.p1 A.s1 A.p2 A.s2 A.po A.so)
    (mem : Nat → V) (before : List (Nat × V)) (flag : Nat × V) (hu : Unpublished mem before flag) (acts : List Act)
    (hret : (exec (stubItem e w n) (blockCode (usedOp st e w A fNew fOld) (st.chosen e w A) A (stubItem e w n)) mem before flag acts).ctl.pc 0 = .returned)
    (evs : List (Nat × Elem.Acc)) (hex : Exec st e A n w' evs) :
    ∃ m', runMem (usedOp st e w A fNew fOld) (fun a : Int => lastStored mem (before ++ [flag]) a.toNat) evs = some m' ∧
      ∀ a : Nat, (exec (stubItem e w n) (blockCode (usedOp st e w A fNew fOld) (st.chosen e w A) A (stubItem e w n)) mem before flag acts).mem a = m' a := by
  have hop : usedOp st e w' A fNew fOld = usedOp st e w A fNew fOld := by unfold usedOp Stub.chosen; rw [hat]
  obtain ⟨m', h1, h2⟩ := C51_call_result st e w' A n (fun a : Int => lastStored mem (before ++ [flag]) a.toNat) fNew fOld hf hs evs hex
  rw [hop] at h1 h2
  obtain ⟨g1, g2, _⟩ := C89_call_result st e w A n fNew fOld hf ha hs mem before flag hu acts hret
  refine ⟨m', h1, fun a => ?_⟩
  by_cases hout : ∃ i : Nat, i < n ∧ (a : Int) = A.po + A.so * i
  · obtain ⟨i, hi, he⟩ := hout
    rw [he, h2.1 i hi, ← g1 i hi, ← he, Int.toNat_natCast]
  · have hno : ∀ i : Nat, i < n → (a : Int) ≠ A.po + A.so * i := fun i hi he => hout ⟨i, hi, he⟩
    rw [g2 a hno, h2.2 a hno]
    simp only [Int.toNat_natCast]

/-- C89: while the call is running, an output element holds in memory what the caller saw there or its final value, nothing else - no matter how the kernel builds up its
results. -/
theorem C89_old_or_new [DecidableEq V] (st : Stub) (e : Entry) (w : World) (A : Args) (n : Nat) (fNew fOld : V → V → V) (hf : Fits st e fNew A) (ha : AddressesOk n A)
    (hs : e.kernel ≠ some .cmpInt8 ∧ SafeOverlap n A.p1 A.s1 A.p2 A.s2 A.po A.so ∨ NoOverlap n A.p1 A.s1 A.p2 A.s2 A.po A.so)
    (mem : Nat → V) (before : List (Nat × V)) (flag : Nat × V) (hu : Unpublished mem before flag) (hflag : ∀ i : Nat, i < n → A.po + A.so * i ≠ flag.1) (acts : List Act)
    (hp : (exec (stubItem e w n) (blockCode (usedOp st e w A fNew fOld) (st.chosen e w A) A (stubItem e w n)) mem before flag acts).mem flag.1 = flag.2) (i : Nat) (hi : i < n) :
    (exec (stubItem e w n) (blockCode (usedOp st e w A fNew fOld) (st.chosen e w A) A (stubItem e w n)) mem before flag acts).mem (A.po + A.so * i).toNat =
      lastStored mem (before ++ [flag]) (A.po + A.so * i).toNat ∨
    (exec (stubItem e w n) (blockCode (usedOp st e w A fNew fOld) (st.chosen e w A) A (stubItem e w n)) mem before flag acts).mem (A.po + A.so * i).toNat =
      usedOp st e w A fNew fOld (lastStored mem (before ++ [flag]) (A.p1 + A.s1 * i).toNat) (lastStored mem (before ++ [flag]) (A.p2 + A.s2 * i).toNat) := by
  have hap := stub_apart (w := w) hf ha (safe_of hs) (usedOp st e w A fNew fOld) (lastStored mem (before ++ [flag]))
  rcases C89_old_or_stored n _ _ _ _ mem before flag hap hu (by
    intro b v hb hv
    obtain ⟨l, y, k1, k2⟩ := code_stores _ _ _ _ _ _ hv
    obtain ⟨j, hj, _, rfl⟩ := (block_accesses (w := w) (n := n) hf hb).2 l y k1
    exact hflag j hj (by rw [k2]; exact (Int.toNat_of_nonneg (ha j hj).2.2).symm)) acts hp (A.po + A.so * i).toNat with h | ⟨b, hb, hv⟩
  · exact Or.inl h
  · refine Or.inr ?_
    generalize (exec (stubItem e w n) (blockCode (usedOp st e w A fNew fOld) (st.chosen e w A) A (stubItem e w n)) mem before flag acts).mem (A.po + A.so * i).toNat = v at hv ⊢
    have hbs := block_safe (w := w) hs hb _ rfl
    have hk := impl_cover (w := w) (fOld := fOld) hf (16384 * b) ((stubItem e w n).blockLen b)
    have hout : ∀ x y : Nat, x < (stubItem e w n).blockLen b → y < (stubItem e w n).blockLen b → x ≠ y →
        (A.at (16384 * b)).po + (A.at (16384 * b)).so * x ≠ (A.at (16384 * b)).po + (A.at (16384 * b)).so * y := by
      rcases hbs with ⟨_, h⟩ | h
      · exact outDistinct_of_safe h
      · exact outDistinct_of_no h
    have hgood := single_good (fun a : Int => lastStored mem (before ++ [flag]) a.toNat) hk hout (by
      rcases hbs with ⟨h8, h⟩ | h
      · exact Or.inl ⟨impl_seg (w := w) (fOld := fOld) hf h8 _ _, h⟩
      · exact Or.inr h)
    obtain ⟨pre, l, y, post, s', k1, k2, k3, k4⟩ := code_store_value (usedOp st e w A fNew fOld) _ ⟨fun a : Int => lastStored mem (before ++ [flag]) a.toNat, fun _ _ => none⟩ (fun _ => none)
      (lastStored mem (before ++ [flag])) (block_nonneg (w := w) hf ha hb) ⟨fun a => by simp, fun l => rfl⟩ _ v hv
    have hmem : Elem.Acc.store l y ∈ implProg (st.chosen e w A) (A.at ((stubItem e w n).blockSize * b)) ((stubItem e w n).blockLen b) := by rw [k1]; simp
    have hlb := (hk.bound _ hmem).2
    have hy := hk.stores l y hmem
    have hpre : GoodRun (usedOp st e w A fNew fOld) (fun a : Int => lastStored mem (before ++ [flag]) a.toNat)
        (fun _ l => usedOp st e w A fNew fOld ((fun a : Int => lastStored mem (before ++ [flag]) a.toNat) (strided (A.at (16384 * b)).p1 (A.at (16384 * b)).s1 l))
          ((fun a : Int => lastStored mem (before ++ [flag]) a.toNat) (strided (A.at (16384 * b)).p2 (A.at (16384 * b)).s2 l)))
        ((pre ++ [Elem.Acc.store l y]).map fun e => (0, e)) := by
      refine GoodRun.prefix (ys := post.map fun e => (0, e)) ?_
      rw [← List.map_append, List.append_assoc]
      have k1' : implProg (st.chosen e w A) (A.at (16384 * b)) ((stubItem e w n).blockLen b) = pre ++ ([Elem.Acc.store l y] ++ post) := k1
      rw [← k1']
      exact hgood
    obtain ⟨s'', r1, _, r2, _⟩ := run_good _ rfl hpre
    rw [k3] at r1
    cases r1
    have hval := r2 0 l y (by simp)
    rw [k4] at hval
    simp only [Acc.lane] at hlb
    obtain ⟨q1, q2⟩ := block_elem hb hlb
    unfold strided at hy hval
    simp only [Args.at, shift_addr] at hy hval
    rw [hy] at k2
    have hil : 16384 * b + l = i := by
      refine Decidable.byContradiction fun hne => ?_
      exact toNat_ne (ha i hi).2.2 (ha _ q1).2.2 (safe_of hs i _ hi q1 (fun e => hne e.symm)).1 k2
    rw [hil] at hval
    exact hval

end

/-! ### Cases -/

/-- The in-place subtraction of 70000 float64 with the vector kernel, threading on, one worker; `before` is a store to the first operand that is still on its way. -/
theorem sub70000_addr : AddressesOk 70000 ⟨0, 8, 1000000, 8, 0, 8⟩ := by intro i hi; simp only; omega

theorem sub70000_unpublished : Unpublished (fun a => if a = 7 then 0 else (a : Int)) [(8, 12345)] (7, 1) := ⟨by decide, by decide⟩

theorem sub70000_returns : ∃ acts, (exec (stubItem ⟨some (.fast 8), 3⟩ ⟨true, false, false, false, 1, 1⟩ 70000)
    (blockCode (usedOp .binary ⟨some (.fast 8), 3⟩ ⟨true, false, false, false, 1, 1⟩ ⟨0, 8, 1000000, 8, 0, 8⟩ (fun x y : Int => x - y) (fun x y => x - y))
      (Stub.binary.chosen ⟨some (.fast 8), 3⟩ ⟨true, false, false, false, 1, 1⟩ ⟨0, 8, 1000000, 8, 0, 8⟩) ⟨0, 8, 1000000, 8, 0, 8⟩ (stubItem ⟨some (.fast 8), 3⟩ ⟨true, false, false, false, 1, 1⟩ 70000))
    (fun a => if a = 7 then 0 else (a : Int)) [(8, 12345)] (7, 1) acts).ctl.pc 0 = .returned := by
  obtain ⟨t, ht⟩ := C89_returns 70000 3 1 1 (blockCode (usedOp .binary ⟨some (.fast 8), 3⟩ ⟨true, false, false, false, 1, 1⟩ ⟨0, 8, 1000000, 8, 0, 8⟩ (fun x y : Int => x - y) (fun x y => x - y))
      (Stub.binary.chosen ⟨some (.fast 8), 3⟩ ⟨true, false, false, false, 1, 1⟩ ⟨0, 8, 1000000, 8, 0, 8⟩) ⟨0, 8, 1000000, 8, 0, 8⟩ (stubItem ⟨some (.fast 8), 3⟩ ⟨true, false, false, false, 1, 1⟩ 70000))
    (fun a => if a = 7 then 0 else (a : Int)) [(8, 12345)] (7, 1) workTurns (workTurns_fair (setup_wf 70000 3 1 CHUNK true 1) rfl _ _ _ _)
  exact ⟨(List.range t).map workTurns, by rw [exec_eq_traceW]; exact ht⟩

/-- Case: element 1 of that call is the caller's 12345 minus cell 1000008, in every run that has returned (there is one). -/
example : ∃ acts, (exec (stubItem ⟨some (.fast 8), 3⟩ ⟨true, false, false, false, 1, 1⟩ 70000)
    (blockCode (usedOp .binary ⟨some (.fast 8), 3⟩ ⟨true, false, false, false, 1, 1⟩ ⟨0, 8, 1000000, 8, 0, 8⟩ (fun x y : Int => x - y) (fun x y => x - y))
      (Stub.binary.chosen ⟨some (.fast 8), 3⟩ ⟨true, false, false, false, 1, 1⟩ ⟨0, 8, 1000000, 8, 0, 8⟩) ⟨0, 8, 1000000, 8, 0, 8⟩ (stubItem ⟨some (.fast 8), 3⟩ ⟨true, false, false, false, 1, 1⟩ 70000))
    (fun a => if a = 7 then 0 else (a : Int)) [(8, 12345)] (7, 1) acts).mem 8 = 12345 - 1000008 := by
  obtain ⟨acts, h⟩ := sub70000_returns
  have hc := (C89_call_result .binary ⟨some (.fast 8), 3⟩ ⟨true, false, false, false, 1, 1⟩ ⟨0, 8, 1000000, 8, 0, 8⟩ 70000 (fun x y : Int => x - y) (fun x y => x - y) sub70000_fits sub70000_addr
    (Or.inl ⟨by simp, sub70000_safe⟩) _ [(8, 12345)] (7, 1) sub70000_unpublished acts h).1 1 (by decide)
  refine ⟨acts, Eq.trans hc ?_⟩
  simp only [usedOp]
  split <;> decide

/-- Case: that run and the same call with threading off. -/
example : ∃ acts evs m', Exec .binary ⟨some (.fast 8), 3⟩ ⟨0, 8, 1000000, 8, 0, 8⟩ 70000 ⟨true, false, true, false, 1, 1⟩ evs ∧
    runMem (usedOp .binary ⟨some (.fast 8), 3⟩ ⟨true, false, false, false, 1, 1⟩ ⟨0, 8, 1000000, 8, 0, 8⟩ (fun x y : Int => x - y) (fun x y => x - y))
      (fun a : Int => lastStored (fun a : Nat => if a = 7 then 0 else (a : Int)) ([(8, 12345)] ++ [(7, 1)]) a.toNat) evs = some m' ∧
    ∀ a : Nat, (exec (stubItem ⟨some (.fast 8), 3⟩ ⟨true, false, false, false, 1, 1⟩ 70000)
    (blockCode (usedOp .binary ⟨some (.fast 8), 3⟩ ⟨true, false, false, false, 1, 1⟩ ⟨0, 8, 1000000, 8, 0, 8⟩ (fun x y : Int => x - y) (fun x y => x - y))
      (Stub.binary.chosen ⟨some (.fast 8), 3⟩ ⟨true, false, false, false, 1, 1⟩ ⟨0, 8, 1000000, 8, 0, 8⟩) ⟨0, 8, 1000000, 8, 0, 8⟩ (stubItem ⟨some (.fast 8), 3⟩ ⟨true, false, false, false, 1, 1⟩ 70000))
    (fun a => if a = 7 then 0 else (a : Int)) [(8, 12345)] (7, 1) acts).mem a = m' a := by
  obtain ⟨acts, h⟩ := sub70000_returns
  obtain ⟨evs, hev⟩ := exec_exists .binary ⟨some (.fast 8), 3⟩ ⟨true, false, true, false, 1, 1⟩ ⟨0, 8, 1000000, 8, 0, 8⟩ 70000
  obtain ⟨m', h1, h2⟩ := C89_same_as_unthreaded .binary ⟨some (.fast 8), 3⟩ ⟨true, false, false, false, 1, 1⟩ ⟨true, false, true, false, 1, 1⟩ rfl ⟨0, 8, 1000000, 8, 0, 8⟩ 70000
    (fun x y : Int => x - y) (fun x y => x - y) sub70000_fits sub70000_addr (Or.inl ⟨by simp, sub70000_safe⟩) _ [(8, 12345)] (7, 1) sub70000_unpublished acts h evs hev
  exact ⟨acts, evs, m', hev, h1, h2⟩

/-- Two blocks that share a cell both read: block `b` stores to cell `10 + b` what it finds in cell 1. -/
def shareBlock (b : Nat) : Prog Int := .load 1 fun v => .store (10 + b) v .done

theorem shareBlock_apart (n : Nat) (m : Nat → Int) : TasksApart n shareBlock m := by
  rintro b b' hb hb' hne a ⟨v, hv, _⟩
  simp only [shareBlock, seqStores, List.mem_singleton, Prod.mk.injEq] at hv
  obtain ⟨rfl, _⟩ := hv
  simp only [shareBlock, seqLoads, seqStores, List.mem_singleton, Prod.mk.injEq]
  exact ⟨by omega, fun w hw => by omega⟩

def shareRun : List Act := (List.replicate 40 [Act.go 0, .go 1, .drain 0, .drain 1]).flatten

theorem shareRun_returned : (exec (ufuncItem 20000 0 1 0) shareBlock (fun _ => 0) [(1, 70)] (100, 1) shareRun).ctl.pc 0 = .returned := by decide +kernel

/-- Case: the second block's cell after the call, one worker; the caller's store of 70 is still on its way when it makes the call. -/
example : (exec (ufuncItem 20000 0 1 0) shareBlock (fun _ => 0) [(1, 70)] (100, 1) shareRun).mem 11 = 70 :=
  ((C89_as_if_serial 20000 0 1 0 shareBlock (fun _ => 0) [(1, 70)] (100, 1) (shareBlock_apart _ _) ⟨by decide, by decide⟩ shareRun shareRun_returned).1 11).trans (by decide)

/-- Case: a moment in the middle, when the worker is in the call and the item is published: it sees the 70 in cell 1, and cell 10 holds 0 or 70. -/
example : load (exec (ufuncItem 20000 0 1 0) shareBlock (fun _ => 0) [(1, 70)] (100, 1) (shareRun.take 14)).mem
    ((exec (ufuncItem 20000 0 1 0) shareBlock (fun _ => 0) [(1, 70)] (100, 1) (shareRun.take 14)).buf 1) 1 = 70 :=
  (C89_published 20000 0 1 0 shareBlock (fun _ => 0) [(1, 70)] (100, 1) (shareBlock_apart _ _) ⟨by decide, by decide⟩ (shareRun.take 14) 1 (by decide) (by decide +kernel) 1
    (by intro b v hb; simp [shareBlock, seqStores]; omega)).trans (by decide)

example := C89_old_or_stored 20000 0 1 0 shareBlock (fun _ => 0) [(1, 70)] (100, 1) (shareBlock_apart _ _) ⟨by decide, by decide⟩
  (by intro b v hb; simp [shareBlock, seqStores]; omega) (shareRun.take 14) (by decide +kernel) 10

/-- Case: in the middle of a comparison of five numbers (two vector steps of two, one scalar) every output element is the old 9 or the final 0 or 1. -/
def cmpMem (a : Nat) : Int := if a = 300 then 0 else if 200 ≤ a then 9 else a

example := C89_old_or_new .compare ⟨some (.cmpVec 8 2), 1⟩ ⟨true, false, false, false, 1, 0⟩ ⟨0, 8, 100, 8, 200, 1⟩ 5 (fun x y : Int => if x < y then 1 else 0) (fun x y => if x < y then 1 else 0)
  ⟨by simp, by rintro k h; cases h; exact ⟨by simp [Kernel.Valid], by simp [Kernel.isUnary], by rintro ⟨s, h⟩; cases h⟩⟩ (by intro i hi; simp only; omega)
  (Or.inl ⟨by simp, by intro i j hi hj hne; simp only; omega⟩) cmpMem [(8, 500)] (300, 1) ⟨by decide, by decide⟩ (by intro i hi; simp only; omega)
  ((List.range 60).map workTurns) (by decide +kernel) 1 (by decide)

end Pnumpy.Props
