import Verif.Proofs.OutOfMemory
import Verif.Props.ReduceTable
/-
Property theorems C98: running out of memory in reductions, indexing and lexsort's arguments.
-/
namespace Pnumpy.Props
open Spec Pnumpy.Reduce Pnumpy.OutOfMemory Pnumpy.OpTables

theorem wsAlloc_ok {ok : Nat → Bool} {h : Heap} (hk : ok h.asked = true) : wsAlloc ok h = some (.block h.asked, ⟨h.asked :: h.live, h.asked + 1⟩) := by
  simp [wsAlloc, hk]

theorem wsAlloc_no {ok : Nat → Bool} {h : Heap} (hk : ok h.asked = false) : wsAlloc ok h = some (.null, ⟨h.live, h.asked + 1⟩) := by
  simp [wsAlloc, hk]

theorem reduceM_eq {β : Type} (ok : Nat → Bool) (n itemsize : Nat) (x : Option β) (h : Heap) :
    reduceM ok n itemsize x h =
      if 1024 < (1 + (n - 1) / 16384) * itemsize then
        (if ok h.asked then x.map fun r => (r, ⟨h.live, h.asked + 1⟩) else none)
      else x.map fun r => (r, h) := by
  unfold reduceM maybeAlloc maybeFree
  by_cases hb : 1024 < (1 + (n - 1) / 16384) * itemsize
  · simp only [gt_iff_lt, hb, if_true]
    cases hk : ok h.asked
    · simp [andThen, wsAlloc_no hk, touch]
    · simp only [andThen, wsAlloc_ok hk, Option.bind_some, touch, ret, lift, if_true]
      cases x with
      | none => rfl
      | some r => simp [wsFree_block]
  · simp only [gt_iff_lt, hb, if_false]
    simp only [andThen, ret, Option.bind_some, touch, lift]
    cases x <;> rfl

/-- C98 (partial: the buffer is small or granted, see `C98_reduce_violated`): a threaded reduction of any integer type ends with
numpy's result and gives its buffer back. -/
theorem C98_reduce_partial (F : FloatUnit) (fn : BinFn) (t : DT) (ht : t.isInt = true) (e : RedFunc) (start : Option (BitVec e.bits))
    (he : ReduceKernel F fn t e start) (lay : Layout) (xs : List (BitVec t.bits)) (init : BitVec t.bits) (hn : 0 < xs.length)
    (hz : lay = .zero → ∀ x ∈ xs, ∀ y ∈ xs, x = y) (req : Int) (mw zz : Nat) (sched : List Nat)
    (hret : (Work.exec (ufuncItem xs.length req mw zz) sched).pc 0 = .returned) (ok : Nat → Bool) (h : Heap)
    (hroom : (1 + (xs.length - 1) / 16384) * (t.bits / 8) ≤ 1024 ∨ ok h.asked = true) :
    ∃ (hb : e.bits = t.bits) (r : BitVec t.bits) (h' : Heap),
      reduceM ok xs.length (t.bits / 8) (threadedFast (e.at hb) (256 / e.bits) lay (start.map (BitVec.cast hb)) xs init
        (Work.kernelCalls (ufuncItem xs.length req mw zz) (Work.exec (ufuncItem xs.length req mw zz) sched))) h = some (r, h') ∧
      IntReduction t init xs r fn ∧ h'.live = h.live := by
  obtain ⟨hb, r, _, h2, h3⟩ := C54_integers F fn t ht e start he lay xs init hn hz req mw zz sched hret
  by_cases hbig : 1024 < (1 + (xs.length - 1) / 16384) * (t.bits / 8)
  · have hk : ok h.asked = true := hroom.resolve_left (by omega)
    exact ⟨hb, r, ⟨h.live, h.asked + 1⟩, by rw [h2, reduceM_eq, if_pos hbig, hk]; rfl, h3, rfl⟩
  · exact ⟨hb, r, h, by rw [h2, reduceM_eq, if_neg hbig]; rfl, h3, rfl⟩

/-- The sum of 70000 int32 values needs 5 cells, 20 bytes: on the stack. -/
example : (1 + (70000 - 1) / 16384) * (DT.i32.bits / 8) ≤ 1024 := by decide

/-- C98, violated: a threaded reduction that needs more than 1024 bytes for its cells (8-byte elements: from 2097153 elements on)
crashes when the buffer is refused, whatever it reduces. -/
theorem C98_reduce_violated {β : Type} (ok : Nat → Bool) (n itemsize : Nat) (x : Option β) (h : Heap)
    (hbig : 1024 < (1 + (n - 1) / 16384) * itemsize) (hk : ok h.asked = false) : reduceM ok n itemsize x h = none := by
  rw [reduceM_eq, if_pos hbig, hk]; rfl

example : reduceM (fun _ => false) 2097153 8 (some 5) ⟨[], 0⟩ = none := C98_reduce_violated _ _ _ _ _ (by decide) rfl
example : reduceM (fun _ => false) 2097152 8 (some 5) ⟨[], 0⟩ = some (5, ⟨[], 0⟩) := rfl

/-- C98: indexing by a mask or an index array: either the call raises and every block is given back, or it returns its array
and that array is the only new block; it raises only if a request is refused. -/
theorem C98_indexing {β : Type} (ok : Nat → Bool) (bytes : β) (h : Heap) :
    (∃ r h', boolIndexM ok (some bytes) h = some (r, h') ∧
      ((r = none ∧ h'.live = h.live ∧ (ok h.asked = false ∨ ok (h.asked + 1) = false)) ∨
       (∃ id, r = some (id, bytes) ∧ h'.live.Perm (id :: h.live) ∧ ok h.asked = true ∧ ok (h.asked + 1) = true))) ∧
    (∃ r h', getItemM ok (some bytes) h = some (r, h') ∧
      ((r = none ∧ h'.live = h.live ∧ ok h.asked = false) ∨ (∃ id, r = some (id, bytes) ∧ h'.live = id :: h.live ∧ ok h.asked = true))) := by
  constructor
  · unfold boolIndexM
    cases h1 : ok h.asked
    · exact ⟨none, ⟨h.live, h.asked + 1⟩, by simp [andThen, wsAlloc_no h1, ret], Or.inl ⟨rfl, rfl, Or.inl rfl⟩⟩
    · cases h2 : ok (h.asked + 1)
      · refine ⟨none, ⟨h.live, h.asked + 2⟩, ?_, Or.inl ⟨rfl, rfl, Or.inr rfl⟩⟩
        have e : wsAlloc ok ⟨h.asked :: h.live, h.asked + 1⟩ = some (.null, ⟨h.asked :: h.live, h.asked + 2⟩) := wsAlloc_no (h := ⟨h.asked :: h.live, h.asked + 1⟩) h2
        simp [andThen, wsAlloc_ok h1, e, wsFree_block, ret]
      · refine ⟨some (h.asked + 1, bytes), ⟨(h.asked + 1) :: h.live, h.asked + 2⟩, ?_, Or.inr ⟨_, rfl, List.Perm.refl _, rfl, rfl⟩⟩
        have e : wsAlloc ok ⟨h.asked :: h.live, h.asked + 1⟩ = some (.block (h.asked + 1), ⟨(h.asked + 1) :: h.asked :: h.live, h.asked + 2⟩) :=
          wsAlloc_ok (h := ⟨h.asked :: h.live, h.asked + 1⟩) h2
        have e2 : wsFree (.block h.asked) ⟨(h.asked + 1) :: h.asked :: h.live, h.asked + 2⟩ = some ((), ⟨(h.asked + 1) :: h.live, h.asked + 2⟩) := by
          show (if h.asked ∈ (h.asked + 1) :: h.asked :: h.live then some ((), (⟨((h.asked + 1) :: h.asked :: h.live).erase h.asked, h.asked + 2⟩ : Heap)) else none) = _
          rw [if_pos (by simp), List.erase_cons_tail (by simp), List.erase_cons_head]
        simp [andThen, wsAlloc_ok h1, e, lift, e2, ret]
  · unfold getItemM
    cases h1 : ok h.asked
    · exact ⟨none, ⟨h.live, h.asked + 1⟩, by simp [andThen, wsAlloc_no h1, ret], Or.inl ⟨rfl, rfl, rfl⟩⟩
    · exact ⟨some (h.asked, bytes), ⟨h.asked :: h.live, h.asked + 1⟩, by simp [andThen, wsAlloc_ok h1, lift, ret], Or.inr ⟨_, rfl, rfl, rfl⟩⟩

/-- The counts granted, the result refused: the counts are given back. -/
example : boolIndexM (fun i => i == 3) (some [1, 2]) ⟨[0], 3⟩ = some (none, ⟨[0], 5⟩) := rfl
example : boolIndexM (fun _ => true) (some [1, 2]) ⟨[0], 3⟩ = some (some (4, [1, 2]), ⟨[4, 0], 5⟩) := rfl

/-- C98 (partial: the block of lexsort's arguments is granted, see `C98_lexsort_violated`): it is given back at the end. -/
theorem C98_lexsort_partial {β : Type} (ok : Nat → Bool) (k : Nat) (r : β) (h : Heap) (hk : ok h.asked = true) :
    ∃ h', lexArgsM ok k (some r) h = some (r, h') ∧ h'.live = h.live := by
  refine ⟨⟨h.live, h.asked + 1⟩, ?_, rfl⟩
  unfold lexArgsM arrayInfoM
  by_cases h0 : k = 0
  · simp [andThen, wsAlloc_ok hk, h0, ret, lift, wsFree_block]
  · simp [andThen, wsAlloc_ok hk, h0, ret, lift, wsFree_block, touch]

example : lexArgsM (fun _ => true) 2 (some 7) ⟨[0], 3⟩ = some (7, ⟨[0], 4⟩) := rfl

/-- C98, violated: when that block is refused, every lexsort with at least one key crashes. -/
theorem C98_lexsort_violated {β : Type} (ok : Nat → Bool) (k : Nat) (hpos : 0 < k) (x : Option β) (h : Heap) (hk : ok h.asked = false) :
    lexArgsM ok k x h = none := by
  unfold lexArgsM arrayInfoM
  have h0 : k ≠ 0 := by omega
  simp [andThen, wsAlloc_no hk, h0, touch]

example : lexArgsM (fun _ => false) 1 (some 7) ⟨[0], 3⟩ = none := C98_lexsort_violated _ 1 (by decide) _ _ rfl

end Pnumpy.Props
