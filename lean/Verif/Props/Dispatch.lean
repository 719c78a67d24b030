import Verif.Model.Dispatch
import Verif.Props.Elementwise
/-
Property theorems C51 (settings never change what an element-wise call computes) and C52 (which threads take part).
-/
namespace Pnumpy.Props
open Pnumpy.Spec Pnumpy.Elem Pnumpy.Dispatch
variable {α : Type}

/-- The table entry fits the stub: the kernel is one of the modelled templates, computes `f`, has as many inputs as the
stub (a one-input call passes its operand as both inputs), and the symmetric template is used for commutative operations. -/
def Fits (st : Stub) (e : Entry) (f : α → α → α) (A : Args) : Prop :=
  (st = .unary → A.p2 = A.p1 ∧ A.s2 = A.s1) ∧
  ∀ k, e.kernel = some k → k.Valid ∧ (k.isUnary = true → st = .unary) ∧
    ((∃ size, k = .symmetric size) → ∀ x y, f x y = f y x)

theorem guarded_some {st : Stub} {e : Entry} {A : Args} {k : Kernel} (h : st.guarded e A = some k) :
    e.kernel = some k ∧ (st = .unary → A.so ≠ 0) := by
  cases st <;> simp only [Stub.guarded] at h
  · split at h <;> simp_all
  · exact ⟨h, by simp⟩
  · split at h <;> simp_all

theorem chosen_callable {st : Stub} {e : Entry} {w : World} {A : Args} {f : α → α → α} {k : Kernel} (hf : Fits st e f A)
    (h : st.chosen e w A = some k) : k.Valid ∧ k.Callable f A ∧ e.kernel = some k := by
  unfold Stub.chosen at h
  split at h
  · obtain ⟨h1, h2⟩ := guarded_some h
    obtain ⟨hv, hu, hs⟩ := hf.2 k h1
    exact ⟨hv, ⟨fun hk => ⟨h2 (hu hk), hf.1 (hu hk)⟩, hs⟩, h1⟩
  · cases h

theorem seg_oldLoop (f : α → α → α) (A : Args) (n : Nat) : KernelSeg f A n (oldLoop A n) := by
  have := seg_scalarLoop (P := LoadOK f A) (a1 := strided A.p1 A.s1) (a2 := strided A.p2 A.s2)
    (o := strided A.po A.so) 0 n (by
      intro l _ _
      exact ⟨fun m => rfl, Or.inl rfl, Or.inr rfl⟩)
  simpa [KernelSeg, oldLoop] using this

/-- The operation the call carries out: the pnumpy kernel's or numpy's. -/
def usedOp (st : Stub) (e : Entry) (w : World) (A : Args) (fNew fOld : α → α → α) : α → α → α :=
  if (st.chosen e w A).isSome then fNew else fOld

theorem impl_cover {st : Stub} {e : Entry} {w : World} {A : Args} {fNew fOld : α → α → α} (hf : Fits st e fNew A)
    (first n : Nat) :
    KernelCover (usedOp st e w A fNew fOld) (A.at first) n (implProg (st.chosen e w A) (A.at first) n) := by
  unfold usedOp
  cases h : st.chosen e w A with
  | none => exact (seg_oldLoop _ _ n).toCover
  | some k =>
    obtain ⟨hv, hc, _⟩ := chosen_callable hf h
    exact kernel_cover k hv _ (callable_at hc first) n

theorem impl_seg {st : Stub} {e : Entry} {w : World} {A : Args} {fNew fOld : α → α → α} (hf : Fits st e fNew A)
    (h8 : e.kernel ≠ some .cmpInt8) (first n : Nat) :
    KernelSeg (usedOp st e w A fNew fOld) (A.at first) n (implProg (st.chosen e w A) (A.at first) n) := by
  unfold usedOp
  cases h : st.chosen e w A with
  | none => exact seg_oldLoop _ _ n
  | some k =>
    obtain ⟨hv, hc, he⟩ := chosen_callable hf h
    exact kernel_seg k hv _ (callable_at hc first) (by rintro rfl; exact h8 he) n

theorem at_zero (A : Args) : A.at 0 = A := by cases A; simp [Args.at]

/-- **C51** (general form): whatever the settings, the length, the schedule and the interleaving of the memory accesses,
a stub call leaves `out[i] = op(in1[i], in2[i])` for every `i < n` and changes nothing else, where `op` is the operation of the
implementation that was chosen. -/
theorem C51_call_result (st : Stub) (e : Entry) (w : World) (A : Args) (n : Nat) (m : Int → α) (fNew fOld : α → α → α)
    (hf : Fits st e fNew A)
    (hs : e.kernel ≠ some .cmpInt8 ∧ SafeOverlap n A.p1 A.s1 A.p2 A.s2 A.po A.so ∨
          NoOverlap n A.p1 A.s1 A.p2 A.s2 A.po A.so)
    (evs : List (Nat × Acc)) (hex : Exec st e A n w evs) :
    ∃ m', runMem (usedOp st e w A fNew fOld) m evs = some m' ∧
      ElementwiseResult (usedOp st e w A fNew fOld) n A.p1 A.s1 A.p2 A.s2 A.po A.so m m' := by
  have hout : ∀ i j : Nat, i < n → j < n → i ≠ j → A.po + A.so * i ≠ A.po + A.so * j := by
    rcases hs with ⟨_, h⟩ | h
    · exact outDistinct_of_safe h
    · exact outDistinct_of_no h
  induction hex with
  | ledgered h hr ih => exact ih
  | @serial w hl h =>
    have hc := impl_cover (w := w) (fOld := fOld) hf 0 n
    rw [at_zero] at hc
    refine exec_single m hc hout ?_
    rcases hs with ⟨h8, hs⟩ | hs
    · have := impl_seg (w := w) (fOld := fOld) hf h8 0 n
      rw [at_zero] at this
      exact Or.inl ⟨this, hs⟩
    · exact Or.inr hs
  | @threaded w hl h sched hret evs hint =>
    refine exec_calls m (C01_exactly_once n e.maxThreads w.maxWakeup w.zigzag sched hret)
      (fun c _ => impl_cover (w := w) (fOld := fOld) hf c.1 c.2) hint hout ?_
    rcases hs with ⟨h8, hs⟩ | hs
    · exact Or.inl ⟨fun c _ => impl_seg hf h8 c.1 c.2, hs⟩
    · exact Or.inr hs

/-- A stub call always has an execution, whatever the settings and the length (so the theorems on executions are about something). -/
theorem exec_exists (st : Stub) (e : Entry) (w : World) (A : Args) (n : Nat) : ∃ evs, Exec st e A n w evs := by
  have off : ∀ w : World, w.ledger = false → ∃ evs, Exec st e A n w evs := by
    intro w hl
    cases h : w.getsItem n with
    | false => exact ⟨_, .serial hl h⟩
    | true =>
      obtain ⟨l, hret⟩ := returns_alone n e.maxThreads w.maxWakeup w.zigzag
      exact ⟨_, .threaded hl h l hret _ (sequential_interleaving _)⟩
  cases hl : w.ledger with
  | false => exact off w hl
  | true =>
    obtain ⟨evs, h⟩ := off { w with ledger := false } rfl
    exact ⟨evs, .ledgered hl h⟩

/-- In-place subtraction of 70000 float64 (a -= b): the table entry fits and the overlap is safe. -/
theorem sub70000_fits : Fits .binary ⟨some (.fast 8), 3⟩ (fun x y : Int => x - y) ⟨0, 8, 1000000, 8, 0, 8⟩ := by
  refine ⟨by simp, ?_⟩
  rintro k h
  cases h
  exact ⟨by simp [Kernel.Valid], by simp [Kernel.isUnary], by rintro ⟨s, h⟩; cases h⟩

theorem sub70000_safe : SafeOverlap 70000 0 8 1000000 8 0 8 := by
  intro i j hi hj hne; omega

/-- Case: that call with threading on. -/
example (m : Int → Int) : ∃ evs m', Exec .binary ⟨some (.fast 8), 3⟩ ⟨0, 8, 1000000, 8, 0, 8⟩ 70000 ⟨true, true, false, false, 3, 1⟩ evs ∧
    runMem (fun x y => x - y) m evs = some m' ∧ m' 8 = m 8 - m 1000008 := by
  obtain ⟨evs, h⟩ := exec_exists .binary ⟨some (.fast 8), 3⟩ ⟨true, true, false, false, 3, 1⟩ ⟨0, 8, 1000000, 8, 0, 8⟩ 70000
  obtain ⟨m', h1, h2⟩ := C51_call_result _ _ _ _ _ m (fun x y : Int => x - y) (fun x y : Int => x - y) sub70000_fits
    (Or.inl ⟨by simp, sub70000_safe⟩) evs h
  refine ⟨evs, m', h, by simpa [usedOp] using h1, ?_⟩
  simpa [usedOp] using h2.1 1 (by decide)

/-- **C51**: with pnumpy disabled (`atop_disable`) the result is numpy's operation applied element by element, however the
threading, ledger, worker and zigzag settings are. -/
theorem C51_disabled_is_numpy (st : Stub) (e : Entry) (w : World) (hw : w.atop = false) (A : Args) (n : Nat) (m : Int → α)
    (fOld : α → α → α) (hf : st = .unary → A.p2 = A.p1 ∧ A.s2 = A.s1)
    (hs : SafeOverlap n A.p1 A.s1 A.p2 A.s2 A.po A.so) (evs : List (Nat × Acc)) (hex : Exec st e A n w evs) :
    ∃ m', runMem fOld m evs = some m' ∧ ElementwiseResult fOld n A.p1 A.s1 A.p2 A.s2 A.po A.so m m' := by
  have key : ∀ {w : World} {evs}, Exec st e A n w evs → w.atop = false → Exec st { e with kernel := none } A n w evs := by
    intro w evs hex
    induction hex with
    | ledgered h hr ih => intro hw; exact .ledgered h (ih hw)
    | @serial w hl h =>
      intro hw
      have : st.chosen e w A = st.chosen { e with kernel := none } w A := by simp [Stub.chosen, hw]
      rw [this]; exact .serial hl h
    | @threaded w hl h sched hret evs hint =>
      intro hw
      have : st.chosen e w A = st.chosen { e with kernel := none } w A := by simp [Stub.chosen, hw]
      rw [this] at hint
      exact .threaded (e := { e with kernel := none }) hl h sched hret evs hint
  obtain ⟨m', h1, h2⟩ := C51_call_result st { e with kernel := none } w A n m fOld fOld ⟨hf, by simp⟩
    (Or.inl ⟨by simp, hs⟩) evs (key hex hw)
  simp only [usedOp, ite_self] at h1 h2
  exact ⟨m', h1, h2⟩

/-- Case: the same call with pnumpy disabled. -/
example (m : Int → Int) : ∃ evs m', Exec .binary ⟨some (.fast 8), 3⟩ ⟨0, 8, 1000000, 8, 0, 8⟩ 70000 ⟨false, true, false, false, 3, 1⟩ evs ∧
    runMem (fun x y => x - y) m evs = some m' := by
  obtain ⟨evs, h⟩ := exec_exists .binary ⟨some (.fast 8), 3⟩ ⟨false, true, false, false, 3, 1⟩ ⟨0, 8, 1000000, 8, 0, 8⟩ 70000
  obtain ⟨m', h1, _⟩ := C51_disabled_is_numpy _ _ _ rfl _ _ m (fun x y : Int => x - y) (by simp) sub70000_safe evs h
  exact ⟨evs, m', h, h1⟩

/-- **C51**: with pnumpy enabled and a kernel in the table, the result is the kernel's operation, except for the calls the
code leaves to numpy: a two-input arithmetic call whose output starts inside the 64 bytes after the start of an input, or a
one-input call with output stride 0. -/
theorem C51_enabled_is_kernel (st : Stub) (e : Entry) (w : World) (hw : w.atop = true) (A : Args) (n : Nat) (m : Int → α)
    (fNew : α → α → α) (hf : Fits st e fNew A) (k : Kernel) (hk : e.kernel = some k)
    (hguard : st = .binary → ¬ (A.p1 < A.po ∧ A.po < A.p1 + 64) ∧ ¬ (A.p2 < A.po ∧ A.po < A.p2 + 64))
    (hguard' : st = .unary → A.so ≠ 0)
    (hs : k ≠ .cmpInt8 ∧ SafeOverlap n A.p1 A.s1 A.p2 A.s2 A.po A.so ∨
          NoOverlap n A.p1 A.s1 A.p2 A.s2 A.po A.so)
    (evs : List (Nat × Acc)) (hex : Exec st e A n w evs) :
    ∃ m', runMem fNew m evs = some m' ∧ ElementwiseResult fNew n A.p1 A.s1 A.p2 A.s2 A.po A.so m m' := by
  have hch : st.chosen e w A = some k := by
    unfold Stub.chosen
    rw [if_pos hw]
    cases st with
    | binary =>
      have := hguard rfl
      simp only [Stub.guarded]
      rw [if_neg (by omega)]; exact hk
    | compare => exact hk
    | unary => simp only [Stub.guarded]; rw [if_neg (hguard' rfl)]; exact hk
  have := C51_call_result st e w A n m fNew fNew hf (by
    rcases hs with ⟨h8, hs⟩ | hs
    · exact Or.inl ⟨by rw [hk]; simpa using h8, hs⟩
    · exact Or.inr hs) evs hex
  simpa [usedOp, hch] using this

theorem exec_congr {st : Stub} {e e' : Entry} {A : Args} {n : Nat} {w : World} {evs : List (Nat × Acc)}
    (hc : ∀ w : World, st.chosen e w A = st.chosen e' w A) (hm : e.maxThreads = e'.maxThreads) (h : Exec st e A n w evs) : Exec st e' A n w evs := by
  induction h with
  | ledgered h _ ih => exact .ledgered h ih
  | @serial w hl h => rw [hc]; exact Exec.serial (e := e') hl h
  | @threaded w hl h sched hret evs hint =>
    rw [hc, hm] at hint
    rw [hm] at hret
    exact Exec.threaded (st := st) (e := e') (A := A) hl h sched hret evs hint

/-- **C51**: a binary call whose output starts inside the 64 bytes after the start of an input, and a one-input call with output stride 0, are left to
numpy's own loop, whatever the table holds and the settings are: the executions are exactly those of an entry without kernel. -/
theorem C51_guard_is_numpy (st : Stub) (e : Entry) (w : World) (A : Args) (n : Nat) (evs : List (Nat × Acc))
    (hg : st = .binary ∧ ((A.p1 < A.po ∧ A.po < A.p1 + 64) ∨ (A.p2 < A.po ∧ A.po < A.p2 + 64)) ∨ st = .unary ∧ A.so = 0) :
    Exec st e A n w evs ↔ Exec st { e with kernel := none } A n w evs := by
  have hc : ∀ w : World, st.chosen e w A = st.chosen { e with kernel := none } w A := by
    intro w
    unfold Stub.chosen
    split
    · rcases hg with ⟨rfl, h⟩ | ⟨rfl, h⟩
      · simp only [Stub.guarded]
        rw [if_pos (by simpa using h)]; simp
      · simp [Stub.guarded, h]
    · rfl
  exact ⟨exec_congr hc rfl, exec_congr (fun w => (hc w).symm) rfl⟩

/-- Case: `np.add(a[:-1], b, out=a[1:])` on float64 (the output starts 8 bytes after the input). -/
example (w : World) (n : Nat) (evs : List (Nat × Acc)) :=
  C51_guard_is_numpy .binary ⟨some (.fast 8), 3⟩ w ⟨0, 8, 100000, 8, 8, 8⟩ n evs (Or.inl ⟨rfl, by decide⟩)

/-- Case: the same call with pnumpy enabled. -/
example (m : Int → Int) : ∃ evs m', Exec .binary ⟨some (.fast 8), 3⟩ ⟨0, 8, 1000000, 8, 0, 8⟩ 70000 ⟨true, true, false, false, 3, 1⟩ evs ∧
    runMem (fun x y => x - y) m evs = some m' := by
  obtain ⟨evs, h⟩ := exec_exists .binary ⟨some (.fast 8), 3⟩ ⟨true, true, false, false, 3, 1⟩ ⟨0, 8, 1000000, 8, 0, 8⟩ 70000
  obtain ⟨m', h1, _⟩ := C51_enabled_is_kernel _ _ _ rfl _ _ m (fun x y : Int => x - y) sub70000_fits _ rfl (by simp) (by simp)
    (Or.inl ⟨by simp, sub70000_safe⟩) evs h
  exact ⟨evs, m', h, h1⟩

/-- **C51**: where the pnumpy kernel computes the same scalar operation as numpy, two calls on the same memory give the
same memory under any two settings and any two schedules. -/
theorem C51_settings_never_matter (st : Stub) (e : Entry) (w w' : World) (A : Args) (n : Nat) (m : Int → α)
    (f : α → α → α) (hf : Fits st e f A)
    (hs : e.kernel ≠ some .cmpInt8 ∧ SafeOverlap n A.p1 A.s1 A.p2 A.s2 A.po A.so ∨
          NoOverlap n A.p1 A.s1 A.p2 A.s2 A.po A.so)
    (evs evs' : List (Nat × Acc)) (hex : Exec st e A n w evs) (hex' : Exec st e A n w' evs') :
    runMem f m evs = runMem f m evs' ∧ runMem f m evs ≠ none := by
  obtain ⟨m1, r1, e1⟩ := C51_call_result st e w A n m f f hf hs evs hex
  obtain ⟨m2, r2, e2⟩ := C51_call_result st e w' A n m f f hf hs evs' hex'
  simp only [usedOp, ite_self] at r1 e1 r2 e2
  rw [r1, r2, elementwise_unique e1 e2]
  exact ⟨rfl, by simp⟩

/-- Case: threaded with pnumpy enabled against serial with the ledger on and pnumpy disabled. -/
example (m : Int → Int) : ∃ evs evs', Exec .binary ⟨some (.fast 8), 3⟩ ⟨0, 8, 1000000, 8, 0, 8⟩ 70000 ⟨true, true, false, false, 3, 1⟩ evs ∧
    Exec .binary ⟨some (.fast 8), 3⟩ ⟨0, 8, 1000000, 8, 0, 8⟩ 70000 ⟨false, true, true, true, 3, 1⟩ evs' ∧
    runMem (fun x y => x - y) m evs = runMem (fun x y => x - y) m evs' := by
  obtain ⟨evs, h⟩ := exec_exists .binary ⟨some (.fast 8), 3⟩ ⟨true, true, false, false, 3, 1⟩ ⟨0, 8, 1000000, 8, 0, 8⟩ 70000
  obtain ⟨evs', h'⟩ := exec_exists .binary ⟨some (.fast 8), 3⟩ ⟨false, true, true, true, 3, 1⟩ ⟨0, 8, 1000000, 8, 0, 8⟩ 70000
  exact ⟨evs, evs', h, h', (C51_settings_never_matter _ _ _ _ _ _ m (fun x y : Int => x - y) sub70000_fits
    (Or.inl ⟨by simp, sub70000_safe⟩) evs evs' h h').1⟩

theorem exec_eq_trace (it : Work.Item) (σ : Nat → Nat) (t : Nat) :
    Work.exec it ((List.range t).map σ) = Work.trace it σ t := by
  induction t with
  | zero => rfl
  | succ t ih => rw [List.range_succ, List.map_append, Work.exec, List.foldl_append, ← Work.exec, ih]; rfl

/-- **C51**, the call can always be carried out (so the theorems above are about something), for every setting and length. -/
theorem C51_call_finishes (st : Stub) (e : Entry) (w : World) (A : Args) (n : Nat) : ∃ evs, Exec st e A n w evs := by
  suffices h : ∀ w : World, w.ledger = false → ∃ evs, Exec st e A n w evs by
    by_cases hl : w.ledger = true
    · obtain ⟨evs, hr⟩ := h { w with ledger := false } rfl
      exact ⟨evs, .ledgered hl hr⟩
    · exact h w (by simpa using hl)
  intro w hl
  by_cases hg : w.getsItem n = true
  · obtain ⟨t, ht⟩ := C03_caller_alone n e.maxThreads w.maxWakeup w.zigzag
    rw [← exec_eq_trace] at ht
    exact ⟨_, .threaded hl hg _ ht _ (sequential_interleaving _)⟩
  · exact ⟨_, .serial hl (by simpa using hg)⟩

/-- Non-vacuity of C51: `a -= b` on 70000 64-bit elements with the vector kernel, threads and ledger on. -/
example : Fits .binary ⟨some (.fast 8), 3⟩ (fun x y : Int => x - y) ⟨0, 8, 1000000, 8, 0, 8⟩ ∧
    SafeOverlap 70000 0 8 1000000 8 0 8 ∧ (⟨true, true, false, false, 3, 1⟩ : World).getsItem 70000 = true := by
  refine ⟨⟨by simp, ?_⟩, ?_, by decide⟩
  · rintro k h
    cases h
    exact ⟨by simp [Kernel.Valid], by simp [Kernel.isUnary], by rintro ⟨s, h⟩; cases h⟩
  · intro i j hi hj hne; omega

/-- **C52**: a call on fewer than 65536 elements, or with threading disabled, makes its accesses one after the other in
program order in a single kernel call of the calling thread. -/
theorem C52_small_or_disabled_serial (st : Stub) (e : Entry) (w : World) (A : Args) (n : Nat)
    (h : n < 65536 ∨ w.noThreading = true) (evs : List (Nat × Acc)) (hex : Exec st e A n w evs) :
    ∃ prog, (∀ a ∈ evs, a.1 = 0) ∧ evs.map (·.2) = prog ∧
      (prog = oldLoop A n ∨ ∃ k, e.kernel = some k ∧ prog = k.prog A n) := by
  have hg : ∀ w : World, (n < 65536 ∨ w.noThreading = true) → w.getsItem n = false := by
    intro w h
    unfold World.getsItem
    rw [if_pos (by simpa [Work.BIG, Work.CHUNK] using h)]
  induction hex with
  | ledgered hl hr ih => exact ih h
  | @serial w hl hn =>
    refine ⟨_, by simp, rfl, ?_⟩
    simp only [List.map_map, Function.comp_def, List.map_id']
    cases hc : st.chosen e w A with
    | none => exact Or.inl rfl
    | some k =>
      refine Or.inr ⟨k, ?_, rfl⟩
      unfold Stub.chosen at hc
      split at hc
      · exact (guarded_some hc).1
      · cases hc
  | @threaded w hl hn => rw [hg w h] at hn; cases hn

/-- Case: 70000 elements with threading disabled. -/
example := @C52_small_or_disabled_serial .binary ⟨some (.fast 8), 3⟩ ⟨true, true, true, false, 3, 1⟩ ⟨0, 8, 1000000, 8, 0, 8⟩ 70000
  (by decide) _ (exec_exists _ _ _ _ _).choose_spec

/-- **C52**: a call on at least 65536 elements with threading enabled and nobody inside the lock is split. -/
theorem C52_large_split (w : World) (n : Nat) (h : 65536 ≤ n) (ht : w.noThreading = false) (hl : w.lockHeld = false) :
    w.getsItem n = true := by
  unfold World.getsItem
  rw [if_neg (by simp [Work.BIG, Work.CHUNK, ht]; omega), hl]; rfl

/-- Case: 70000 elements, threading enabled. -/
example : (⟨true, true, false, false, 3, 1⟩ : World).getsItem 70000 = true := C52_large_split _ _ (by decide) rfl rfl

/-- **C52**: in a split call at most `thread_getworkers()` worker threads take part, and at most the function's own limit if it
has one: a thread with a larger number never gets a block, for every schedule and moment. -/
theorem C52_thread_limit (n : Nat) (req : Int) (maxWakeup zz : Nat) (sched : List Nat) (c : Nat)
    (hc : maxWakeup < c ∨ (0 < req ∧ req < c)) :
    (Work.exec (ufuncItem n req maxWakeup zz) sched).pc c = .idle := by
  have hw : (ufuncItem n req maxWakeup zz).wakeup < c := by
    simp only [ufuncItem, Work.workMainSetup]
    split <;> omega
  have h0 : 0 < c := by omega
  unfold Work.exec
  have : ∀ (l : List Nat) (s : Work.St), s.pc c = .idle → (l.foldl (Work.step (ufuncItem n req maxWakeup zz)) s).pc c = .idle := by
    intro l
    induction l with
    | nil => intro s h; exact h
    | cons a l ih =>
      intro s h
      refine ih _ ?_
      by_cases ha : a = c
      · subst ha
        unfold Work.step
        rw [if_pos hw]; exact h
      · rw [Work.step_other _ _ (Ne.symm ha)]; exact h
  exact this _ _ (by simp [Work.init]; omega)

/-- Case: 7 workers started, limit 3 of the function: worker 4 stays idle. -/
example (sched : List Nat) : (Work.exec (ufuncItem 1000000 3 7 0) sched).pc 4 = .idle := C52_thread_limit _ _ _ _ _ _ (by decide)

/-- **C52**: and the limit is reached: if the function's limit `req` and `thread_getworkers()` both allow worker `c`, and there
are at least as many 16384-element blocks as threads, there is a schedule in which it runs a block. -/
theorem C52_limit_reached (n : Nat) (req : Int) (maxWakeup zz c : Nat) (hc : 0 < c) (h1 : c ≤ maxWakeup)
    (h2 : req ≤ 0 ∨ (c : Int) ≤ req) (hn : 16384 * c < n) :
    ∃ sched b, (Work.exec (ufuncItem n req maxWakeup zz) sched).pc c = .run b := by
  refine ⟨[c, c, c], (ufuncItem n req maxWakeup zz).logical c 0, ?_⟩
  have hw : ¬ (ufuncItem n req maxWakeup zz).wakeup < c := by
    simp only [ufuncItem, Work.workMainSetup]
    split <;> omega
  have hl : 0 < (ufuncItem n req maxWakeup zz).chanLast c := by
    simp only [ufuncItem, Work.workMainSetup, Work.CHUNK]
    generalize (if req ≤ 0 then maxWakeup else min req.toNat maxWakeup) = w
    simp only [if_pos]
    split
    · exact Nat.succ_pos _
    · rename_i hx
      have hbl : c < (n + (16384 - 1)) / 16384 := by omega
      by_cases hle : w + 1 ≤ (n + (16384 - 1)) / 16384
      · exact Nat.lt_of_lt_of_le (Nat.div_pos hle (Nat.succ_pos w)) (Nat.le_add_right _ _)
      · exact absurd (by rw [Nat.mod_eq_of_lt (by omega)]; exact hbl) hx
  have hc0 : c ≠ 0 := by omega
  simp [Work.exec, Work.step, Work.init, Work.tryClaim, Work.upd, hw, hl, hc0]

/-- Case: worker 3 of 7 with limit 3. -/
example : ∃ sched b, (Work.exec (ufuncItem 1000000 3 7 0) sched).pc 3 = .run b := C52_limit_reached _ _ _ _ _ (by decide) (by decide) (by decide) (by decide)

/-- Bytes between neighbouring input elements that the contiguous branches of a template assume (`none`: it has no
such branch). -/
def elemBytes : Kernel → Option Nat
  | .slow s | .fast s | .symmetric s | .fastDouble s | .unaryFast s | .unaryNan s _ _ | .unaryMask s _ | .cmpAny s
  | .cmpVec s _ => some s
  | .cmpInt64 => some 8
  | .cmpInt8 => some 1
  | .unarySlow => none

end Pnumpy.Props
