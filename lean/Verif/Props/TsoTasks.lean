import Verif.Model.TsoTasks
import Verif.Props.TsoCounter
/-
Property theorems C87, continued: indexing with a boolean mask on a processor with store buffers.
-/
namespace Pnumpy.Props
open Spec Pnumpy.TsoCounter
open Pnumpy.Tso (load load_eq load_not_mem applyAll)
open Counter (Cfg)

variable {V : Type}

/-- A cell that only task `b` stores to ends as that task alone leaves it. -/
theorem serial_owner {n : Nat} {prog : Nat → Prog V} {m : Nat → V} (hd : TasksApart n prog m) {b a : Nat} (hb : b < n)
    (ho : ∀ b', b' < n → b' ≠ b → ∀ v, (a, v) ∉ seqStores (prog b') m) : serial prog 0 n m a = seqRun (prog b) m a := by
  obtain ⟨e1, e2⟩ := serial_eq (g := { n, skip0 := false, wakeup := 0 }) (apart_disjoint hd) n 0 (Nat.zero_add _) m (fun _ _ _ _ _ => rfl)
  by_cases hc : Chg prog m b a
  · exact e1 b (Nat.zero_le _) hb a hc
  · rw [e2 a, run_not_chg (fun _ _ => rfl) hc rfl]
    intro b' _ hb' hx
    by_cases e : b' = b
    · subst e; exact hc hx
    · obtain ⟨v, hv, _⟩ := hx
      exact ho b' hb' e v hv

/-- A cell no task stores to stays. -/
theorem serial_none {n : Nat} {prog : Nat → Prog V} {m : Nat → V} (hd : TasksApart n prog m) {a : Nat}
    (ho : ∀ b', b' < n → ∀ v, (a, v) ∉ seqStores (prog b') m) : serial prog 0 n m a = m a := by
  obtain ⟨_, e2⟩ := serial_eq (g := { n, skip0 := false, wakeup := 0 }) (apart_disjoint hd) n 0 (Nat.zero_add _) m (fun _ _ _ _ _ => rfl)
  exact e2 a fun b' _ hb' ⟨v, hv, _⟩ => ho b' hb' v hv

/-! ### Boolean masks -/

/-- The elements from `i` on, `k` of them, whose mask byte is set. -/
def hitsIn (M : MaskCells V) (m : Nat → V) (i k : Nat) : List Nat := (List.range' i k).filter fun j => M.isSet (m (M.mask j))

theorem hitsIn_succ (M : MaskCells V) (m : Nat → V) (i k : Nat) :
    hitsIn M m i (k + 1) = if M.isSet (m (M.mask i)) then i :: hitsIn M m (i + 1) k else hitsIn M m (i + 1) k := by
  simp only [hitsIn, List.range'_succ, List.filter_cons]

theorem hitsIn_add (M : MaskCells V) (m : Nat → V) (i k l : Nat) : hitsIn M m i (k + l) = hitsIn M m i k ++ hitsIn M m (i + k) l := by
  simp only [hitsIn, ← List.range'_append_1, List.filter_append]

theorem hitsIn_len (M : MaskCells V) (m : Nat → V) (i k : Nat) : (hitsIn M m i k).length ≤ k := by
  have := List.length_filter_le (fun j => M.isSet (m (M.mask j))) (List.range' i k)
  simpa [hitsIn] using this

theorem hitsIn_congr (M : MaskCells V) {m m' : Nat → V} {i k : Nat} (h : ∀ j, i ≤ j → j < i + k → m (M.mask j) = m' (M.mask j)) :
    hitsIn M m i k = hitsIn M m' i k := by
  refine List.filter_congr fun j hj => ?_
  rw [List.mem_range'_1] at hj
  rw [h j hj.1 hj.2]

theorem countCode_eq (M : MaskCells V) (b : Nat) : ∀ (k i s : Nat) (m : Nat → V),
    seqStores (countCode M b i k s) m = [(M.cnt b, M.num (s + (hitsIn M m i k).length))] ∧
    seqLoads (countCode M b i k s) m = (List.range' i k).map M.mask ∧
    seqRun (countCode M b i k s) m = fun x => if x = M.cnt b then M.num (s + (hitsIn M m i k).length) else m x := by
  intro k
  induction k with
  | zero => intro i s m; exact ⟨rfl, rfl, rfl⟩
  | succ k ih =>
    intro i s m
    rw [hitsIn_succ, countCode, seqStores, seqLoads, seqRun]
    obtain ⟨e1, e2, e3⟩ := ih (i + 1) (if M.isSet (m (M.mask i)) then s + 1 else s) m
    rw [e1, e2, e3, List.range'_succ]
    refine ⟨?_, rfl, ?_⟩ <;> split <;> simp [Nat.add_assoc, Nat.add_comm 1]

/-- The copying loop stores the selected values to consecutive result elements. -/
theorem pickCode_eq (M : MaskCells V) (n : Nat) (ho1 : ∀ i j, i < n → j < n → M.out i ≠ M.mask j) (ho2 : ∀ i j, i < n → j < n → M.out i ≠ M.val j)
    (hinj : ∀ i j, i < n → j < n → M.out i = M.out j → i = j) :
    ∀ (k i o : Nat) (m m' : Nat → V), i + k ≤ n → o + (hitsIn M m i k).length ≤ n →
      (∀ j, j < n → m' (M.mask j) = m (M.mask j) ∧ m' (M.val j) = m (M.val j)) →
    (∀ a v, (a, v) ∈ seqStores (pickCode M i k o) m' → ∃ j, o ≤ j ∧ j < o + (hitsIn M m i k).length ∧ a = M.out j) ∧
    (∀ a, a ∈ seqLoads (pickCode M i k o) m' → ∃ j, j < n ∧ (a = M.mask j ∨ a = M.val j)) ∧
    (∀ j, j < n → (j < o ∨ o + (hitsIn M m i k).length ≤ j) → seqRun (pickCode M i k o) m' (M.out j) = m' (M.out j)) ∧
    (∀ j x, (hitsIn M m i k)[j]? = some x → seqRun (pickCode M i k o) m' (M.out (o + j)) = m (M.val x)) := by
  intro k
  induction k with
  | zero =>
    intro i o m m' _ _ _
    refine ⟨fun a v h => ?_, fun a h => ?_, fun _ _ _ => rfl, fun j x h => ?_⟩
    · cases h
    · cases h
    · cases h
  | succ k ih =>
    intro i o m m' hk hl hm
    have hmi := hm i (by omega)
    rw [pickCode]
    simp only [seqStores, seqLoads, seqRun, hmi.1, hitsIn_succ] at hl ⊢
    by_cases hs : M.isSet (m (M.mask i)) = true
    · simp only [hs, if_true, List.length_cons, seqStores, seqLoads, seqRun, hmi.2] at hl ⊢
      have hon : o < n := by omega
      obtain ⟨f1, f2, f3, f4⟩ := ih (i + 1) (o + 1) m (fun x => if x = M.out o then m (M.val i) else m' x) (by omega) (by omega)
        (fun j hj => by
          rw [if_neg (fun e => ho1 o j hon hj e.symm), if_neg (fun e => ho2 o j hon hj e.symm)]
          exact hm j hj)
      refine ⟨fun a v h => ?_, fun a h => ?_, fun j hj h => ?_, fun j x h => ?_⟩
      · rcases List.mem_cons.1 h with e | h
        · exact ⟨o, Nat.le_refl _, by omega, (Prod.mk.inj e).1⟩
        · obtain ⟨j, h1, h2, h3⟩ := f1 a v h
          exact ⟨j, by omega, by omega, h3⟩
      · rcases List.mem_cons.1 h with e | h
        · exact ⟨i, by omega, Or.inl e⟩
        · rcases List.mem_cons.1 h with e | h
          · exact ⟨i, by omega, Or.inr e⟩
          · exact f2 a h
      · rw [f3 j hj (by omega), if_neg]
        intro e
        have := hinj j o hj hon e
        omega
      · cases j with
        | zero =>
          obtain rfl : i = x := by simpa using h
          have h3 := f3 o hon (by omega)
          simp only [Nat.add_zero]
          rw [h3, if_pos rfl]
        | succ j =>
          rw [show o + (j + 1) = o + 1 + j by omega]
          exact f4 j x (by simpa using h)
    · simp only [hs, Bool.false_eq_true, if_false] at hl ⊢
      obtain ⟨f1, f2, f3, f4⟩ := ih (i + 1) o m m' (by omega) hl hm
      refine ⟨f1, fun a h => ?_, f3, f4⟩
      rcases List.mem_cons.1 h with e | h
      · exact ⟨i, by omega, Or.inl e⟩
      · exact f2 a h

theorem lastStored_not_mem (mem : Nat → V) (l : List (Nat × V)) (a : Nat) (h : ∀ p ∈ l, p.1 ≠ a) : lastStored mem l a = mem a := by
  unfold lastStored
  rw [List.find?_eq_none.2]
  · rfl
  · intro p hp
    simpa using h p (List.mem_reverse.1 hp)

theorem lastStored_append (mem : Nat → V) (l l' : List (Nat × V)) (a : Nat) (h : ∀ p ∈ l', p.1 ≠ a) : lastStored mem (l ++ l') a = lastStored mem l a := by
  unfold lastStored
  rw [List.reverse_append, List.find?_append, List.find?_eq_none.2 (fun p hp => by simpa using h p (List.mem_reverse.1 hp))]
  rfl

theorem lastStored_cons_ne (mem : Nat → V) (p : Nat × V) (l : List (Nat × V)) (a : Nat) (h : p.1 ≠ a) : lastStored mem (p :: l) a = lastStored mem l a := by
  unfold lastStored
  rw [List.reverse_cons, List.find?_append]
  cases (l.reverse.find? fun p => decide (p.1 = a)) with
  | some q => rfl
  | none => simp [h]

theorem lastStored_cons_eq (mem : Nat → V) (a : Nat) (v : V) (l : List (Nat × V)) (h : ∀ p ∈ l, p.1 ≠ a) : lastStored mem ((a, v) :: l) a = v := by
  unfold lastStored
  rw [List.reverse_cons, List.find?_append, List.find?_eq_none.2 (fun p hp => by simpa using h p (List.mem_reverse.1 hp))]
  simp

theorem cumStores_addr (M : MaskCells V) (m : Nat → V) : ∀ (k b total : Nat) (p : Nat × V), p ∈ cumStores M m b k total → ∃ j, b ≤ j ∧ j < b + k ∧ p.1 = M.cnt j := by
  intro k
  induction k with
  | zero => intro b total p h; cases h
  | succ k ih =>
    intro b total p h
    rcases List.mem_cons.1 h with e | h
    · exact ⟨b, Nat.le_refl _, by omega, by rw [e]⟩
    · obtain ⟨j, h1, h2, h3⟩ := ih _ _ p h
      exact ⟨j, by omega, by omega, h3⟩

theorem cumStores_val (M : MaskCells V) (m0 m : Nat → V) (N : Nat) (S : Nat → Nat) (hinj : ∀ i j, i < N → j < N → M.cnt i = M.cnt j → i = j)
    (hS : ∀ b, b < N → S (b + 1) = S b + M.toNat (m (M.cnt b))) : ∀ (k b : Nat), b + k = N → ∀ j, b ≤ j → j < N →
      lastStored m0 (cumStores M m b k (S b)) (M.cnt j) = M.num (S j) := by
  intro k
  induction k with
  | zero => intro b hb j h1 h2; omega
  | succ k ih =>
    intro b hb j h1 h2
    rw [cumStores]
    by_cases e : j = b
    · subst e
      refine lastStored_cons_eq _ _ _ _ fun p hp he => ?_
      obtain ⟨i, g1, g2, g3⟩ := cumStores_addr M m _ _ _ p hp
      have := hinj i j (by omega) h2 (g3.symm.trans he)
      omega
    · rw [lastStored_cons_ne _ _ _ _ (fun he => e (hinj j b h2 (by omega) he.symm)), ← hS b (by omega)]
      exact ih (b + 1) (by omega) j (by omega) h2

/-- The arrays of a mask call are different pieces of memory, none of them the cell `F` that publishes work items; counts up to `n` can be stored. -/
structure MaskLayout (M : MaskCells V) (n F : Nat) : Prop where
  num : ∀ k, k ≤ n → M.toNat (M.num k) = k
  out : ∀ i j, i < n → j < n → M.out i = M.out j → i = j
  cnt : ∀ b b', b < (n + 16383) / 16384 → b' < (n + 16383) / 16384 → M.cnt b = M.cnt b' → b = b'
  outMask : ∀ i j, i < n → j < n → M.out i ≠ M.mask j
  outVal : ∀ i j, i < n → j < n → M.out i ≠ M.val j
  outCnt : ∀ i b, i < n → b < (n + 16383) / 16384 → M.out i ≠ M.cnt b
  cntMask : ∀ b j, b < (n + 16383) / 16384 → j < n → M.cnt b ≠ M.mask j
  cntVal : ∀ b j, b < (n + 16383) / 16384 → j < n → M.cnt b ≠ M.val j
  flagCnt : ∀ b, b < (n + 16383) / 16384 → M.cnt b ≠ F
  flagMask : ∀ j, j < n → M.mask j ≠ F
  flagVal : ∀ j, j < n → M.val j ≠ F

theorem countTask_eq (n : Nat) (M : MaskCells V) (b : Nat) (hb : b < (n + 16383) / 16384) :
    countTask n M b = countCode M b (16384 * b) (min 16384 (n - 16384 * b)) 0 := by
  unfold countTask; rw [chunk_len n b hb]; rfl

theorem count_apart (n : Nat) (M : MaskCells V) (m : Nat → V) (F : Nat) (hL : MaskLayout M n F) : TasksApart ((n + 16383) / 16384) (countTask n M) m := by
  have eq : ∀ b, b < (n + 16383) / 16384 → _ := fun b _ => countCode_eq M b (min 16384 (n - 16384 * b)) (16384 * b) 0 m
  rintro b b' hb hb' hne a ⟨v, hv, _⟩
  rw [countTask_eq n M b hb, (eq b hb).1, List.mem_singleton, Prod.mk.injEq] at hv
  rw [countTask_eq n M b' hb', (eq b' hb').1, (eq b' hb').2.1]
  refine ⟨fun h => ?_, fun w h => ?_⟩
  · obtain ⟨j, hj, he⟩ := List.mem_map.1 h
    rw [List.mem_range'_1] at hj
    exact hL.cntMask b j hb (by omega) (hv.1.symm.trans he.symm)
  · rw [List.mem_singleton, Prod.mk.injEq] at h
    exact hne (hL.cnt b b' hb hb' (hv.1.symm.trans h.1))

/-- The counting pass: the chunk's count in the chunk's cell, everything else as the caller saw it. -/
theorem count_pass [DecidableEq V] (n wakeup : Nat) (M : MaskCells V) (mem : Nat → V) (before : List (Nat × V)) (F : Nat) (v1 : V) (hL : MaskLayout M n F)
    (hu : Unpublished mem before (F, v1)) (acts : List Act)
    (hret : (exec { n := (n + 16383) / 16384, skip0 := false, wakeup } (countTask n M) mem before (F, v1) acts).ctl.pc 0 = .returned) :
    (∀ b, b < (n + 16383) / 16384 → (exec { n := (n + 16383) / 16384, skip0 := false, wakeup } (countTask n M) mem before (F, v1) acts).mem (M.cnt b) =
      M.num (hitsIn M (lastStored mem (before ++ [(F, v1)])) (16384 * b) (min 16384 (n - 16384 * b))).length) ∧
    ∀ a, (∀ b, b < (n + 16383) / 16384 → a ≠ M.cnt b) → (exec { n := (n + 16383) / 16384, skip0 := false, wakeup } (countTask n M) mem before (F, v1) acts).mem a =
      lastStored mem (before ++ [(F, v1)]) a := by
  generalize hm : lastStored mem (before ++ [(F, v1)]) = m
  have hC : Work.CHUNK = 16384 := rfl
  have eq : ∀ b, b < (n + 16383) / 16384 → _ := fun b hb => countCode_eq M b (min 16384 (n - 16384 * b)) (16384 * b) 0 m
  have ht := countTask_eq n M
  have hd := count_apart n M m F hL
  have hw := (C87_as_if_serial _ (countTask n M) mem before (F, v1) (by rw [hm]; exact hd) hu acts hret).1
  rw [hm] at hw
  refine ⟨fun b hb => ?_, fun a ha => ?_⟩
  · rw [hw]
    show serial (countTask n M) 0 ((n + 16383) / 16384) m _ = _
    rw [serial_owner hd hb, ht b hb, (eq b hb).2.2]
    · simp
    · intro b' hb' hne v h
      rw [ht b' hb', (eq b' hb').1, List.mem_singleton, Prod.mk.injEq] at h
      exact hne (hL.cnt b' b hb' hb h.1.symm)
  · rw [hw]
    show serial (countTask n M) 0 ((n + 16383) / 16384) m _ = _
    refine serial_none hd fun b hb v h => ?_
    rw [ht b hb, (eq b hb).1, List.mem_singleton, Prod.mk.injEq] at h
    exact ha b hb h.1

/-- **C87 for indexing with a boolean mask** (both passes threaded): any number of elements and threads, any schedule, any delay of the stores in either pass, and
whatever stores of the caller were on their way at the call, the partial sums it stores between the passes and `rest` (the result array's header, the
fields of the second work item, ...) included. When the second pass has returned, the result elements are, in order, the values the caller saw at the
elements whose mask byte it saw set. -/
theorem C87_mask [DecidableEq V] (n w1 w2 : Nat) (M : MaskCells V) (mem : Nat → V) (before rest : List (Nat × V)) (F : Nat) (v1 v2 : V) (hL : MaskLayout M n F)
    (hu : Unpublished mem before (F, v1)) (hv : v1 ≠ v2)
    (hrest : ∀ p ∈ rest, p.1 ≠ F ∧ (∀ j, j < n → p.1 ≠ M.mask j ∧ p.1 ≠ M.val j) ∧ ∀ b, b < (n + 16383) / 16384 → p.1 ≠ M.cnt b)
    (acts1 acts2 : List Act) (s1 s2 : TsoCounter.St V)
    (h1 : s1 = exec { n := (n + 16383) / 16384, skip0 := false, wakeup := w1 } (countTask n M) mem before (F, v1) acts1) (hret1 : s1.ctl.pc 0 = .returned)
    (h2 : s2 = exec { n := (n + 16383) / 16384, skip0 := false, wakeup := w2 } (pickTask n M) s1.mem (cumStores M s1.mem 0 ((n + 16383) / 16384) 0 ++ rest) (F, v2) acts2)
    (hret2 : s2.ctl.pc 0 = .returned) :
    let saw := lastStored mem (before ++ [(F, v1)])
    let hits := (List.range n).filter fun i => M.isSet (saw (M.mask i))
    (∀ j i, hits[j]? = some i → s2.mem (M.out j) = saw (M.val i)) ∧ ∀ c, s1.buf c = [] ∧ s2.buf c = [] := by
  intro saw hits
  have hsaw : lastStored mem (before ++ [(F, v1)]) = saw := rfl
  have hhits : hits = hitsIn M saw 0 n := by simp only [hits, hitsIn, List.range_eq_range']
  have hC : Work.CHUNK = 16384 := rfl
  subst h1
  obtain ⟨p1, p2⟩ := count_pass n w1 M mem before F v1 hL hu acts1 hret1
  have hb1 := (C87_as_if_serial _ (countTask n M) mem before (F, v1) (count_apart n M _ F hL) hu acts1 hret1).2
  generalize hg : (exec { n := (n + 16383) / 16384, skip0 := false, wakeup := w1 } (countTask n M) mem before (F, v1) acts1) = s1 at *
  rw [hsaw] at p1 p2
  -- the sums
  have hsum : ∀ b, b < (n + 16383) / 16384 → (hitsIn M saw 0 (min n (16384 * (b + 1)))).length =
      (hitsIn M saw 0 (min n (16384 * b))).length + M.toNat (s1.mem (M.cnt b)) := by
    intro b hb
    have hlen := hitsIn_len M saw (16384 * b) (min 16384 (n - 16384 * b))
    rw [p1 b hb, hL.num _ (by omega), show min n (16384 * b) = 16384 * b by omega,
      show min n (16384 * (b + 1)) = 16384 * b + min 16384 (n - 16384 * b) by omega, hitsIn_add, List.length_append, Nat.zero_add]
  have hcnt : ∀ b, b < (n + 16383) / 16384 →
      lastStored s1.mem (cumStores M s1.mem 0 ((n + 16383) / 16384) 0 ++ rest ++ [(F, v2)]) (M.cnt b) = M.num (hitsIn M saw 0 (min n (16384 * b))).length := by
    intro b hb
    have h0 : (hitsIn M saw 0 (min n (16384 * 0))).length = 0 := by simp [hitsIn]
    rw [List.append_assoc, lastStored_append]
    · have := cumStores_val M s1.mem s1.mem ((n + 16383) / 16384) (fun b => (hitsIn M saw 0 (min n (16384 * b))).length) hL.cnt hsum
        ((n + 16383) / 16384) 0 (Nat.zero_add _) b (Nat.zero_le _) hb
      rw [h0] at this
      exact this
    · intro p hp he
      rcases List.mem_append.1 hp with h | h
      · exact (hrest p h).2.2 b hb he
      · rw [List.mem_singleton] at h
        rw [h] at he
        exact hL.flagCnt b hb he.symm
  -- what the second call's caller sees in the other arrays
  have hkeep : ∀ a, a ≠ F → (∀ b, b < (n + 16383) / 16384 → a ≠ M.cnt b) → (∀ p ∈ rest, p.1 ≠ a) →
      lastStored s1.mem (cumStores M s1.mem 0 ((n + 16383) / 16384) 0 ++ rest ++ [(F, v2)]) a = saw a := by
    intro a hF hc hr
    rw [lastStored_not_mem, p2 a hc]
    intro p hp he
    rcases List.mem_append.1 hp with h | h
    · rcases List.mem_append.1 h with h | h
      · obtain ⟨j, _, hj, e⟩ := cumStores_addr M s1.mem _ _ _ p h
        exact hc j (by omega) (he.symm.trans e)
      · exact hr p h he
    · rw [List.mem_singleton] at h
      rw [h] at he
      exact hF he.symm
  have hin : ∀ j, j < n → lastStored s1.mem (cumStores M s1.mem 0 ((n + 16383) / 16384) 0 ++ rest ++ [(F, v2)]) (M.mask j) = saw (M.mask j) ∧
      lastStored s1.mem (cumStores M s1.mem 0 ((n + 16383) / 16384) 0 ++ rest ++ [(F, v2)]) (M.val j) = saw (M.val j) := fun j hj =>
    ⟨hkeep _ (hL.flagMask j hj) (fun b hb e => hL.cntMask b j hb hj e.symm) (fun p hp => ((hrest p hp).2.1 j hj).1),
     hkeep _ (hL.flagVal j hj) (fun b hb e => hL.cntVal b j hb hj e.symm) (fun p hp => ((hrest p hp).2.1 j hj).2)⟩
  have hu2 : Unpublished s1.mem (cumStores M s1.mem 0 ((n + 16383) / 16384) 0 ++ rest) (F, v2) := by
    refine ⟨?_, fun p hp => ?_⟩
    · show s1.mem F ≠ v2
      rw [p2 F (fun b hb e => hL.flagCnt b hb e.symm)]
      have : saw F = v1 := by
        show lastStored mem (before ++ [(F, v1)]) F = v1
        simp [lastStored]
      rw [this]
      exact hv
    · rcases List.mem_append.1 hp with h | h
      · obtain ⟨j, _, hj, e⟩ := cumStores_addr M s1.mem _ _ _ p h
        rw [e]
        exact hL.flagCnt j (by omega)
      · exact (hrest p h).1
  generalize hm2 : lastStored s1.mem (cumStores M s1.mem 0 ((n + 16383) / 16384) 0 ++ rest ++ [(F, v2)]) = m2 at *
  -- the copying tasks
  have hoff : ∀ b, b < (n + 16383) / 16384 → (hitsIn M saw 0 (16384 * b)).length + (hitsIn M saw (16384 * b) (min 16384 (n - 16384 * b))).length =
      (hitsIn M saw 0 (16384 * b + min 16384 (n - 16384 * b))).length := by
    intro b hb
    rw [hitsIn_add, List.length_append, Nat.zero_add]
  have ht : ∀ b, b < (n + 16383) / 16384 → ∃ k, pickTask n M b = .load (M.cnt b) k ∧
      k (m2 (M.cnt b)) = pickCode M (16384 * b) (min 16384 (n - 16384 * b)) (hitsIn M saw 0 (16384 * b)).length := by
    intro b hb
    refine ⟨_, rfl, ?_⟩
    have := hitsIn_len M saw 0 (16384 * b)
    rw [chunk_len n b hb, hC, hcnt b hb, show min n (16384 * b) = 16384 * b by omega, hL.num _ (by omega)]
  have hp : ∀ b, b < (n + 16383) / 16384 → _ := fun b hb =>
    pickCode_eq M n hL.outMask hL.outVal hL.out (min 16384 (n - 16384 * b)) (16384 * b) (hitsIn M saw 0 (16384 * b)).length saw m2 (by omega)
      (by rw [hoff b hb]; have := hitsIn_len M saw 0 (16384 * b + min 16384 (n - 16384 * b)); omega) hin
  have hmono : ∀ b b', b < b' → b' < (n + 16383) / 16384 →
      (hitsIn M saw 0 (16384 * b)).length + (hitsIn M saw (16384 * b) (min 16384 (n - 16384 * b))).length ≤ (hitsIn M saw 0 (16384 * b')).length := by
    intro b b' h hb'
    rw [hoff b (by omega), show 16384 * b' = (16384 * b + min 16384 (n - 16384 * b)) + (16384 * b' - (16384 * b + min 16384 (n - 16384 * b))) by omega,
      hitsIn_add M saw 0 (16384 * b + min 16384 (n - 16384 * b)), List.length_append]
    omega
  have htot : ∀ b, b < (n + 16383) / 16384 → (hitsIn M saw 0 (16384 * b)).length + (hitsIn M saw (16384 * b) (min 16384 (n - 16384 * b))).length ≤ n := by
    intro b hb
    rw [hoff b hb]
    have := hitsIn_len M saw 0 (16384 * b + min 16384 (n - 16384 * b))
    omega
  have hst : ∀ b, b < (n + 16383) / 16384 → ∀ a v, (a, v) ∈ seqStores (pickTask n M b) m2 →
      ∃ j, (hitsIn M saw 0 (16384 * b)).length ≤ j ∧ j < (hitsIn M saw 0 (16384 * b)).length + (hitsIn M saw (16384 * b) (min 16384 (n - 16384 * b))).length ∧ a = M.out j := by
    intro b hb a v h
    obtain ⟨k, e1, e2⟩ := ht b hb
    rw [e1, seqStores, e2] at h
    exact (hp b hb).1 a v h
  have hd : TasksApart ((n + 16383) / 16384) (pickTask n M) m2 := by
    rintro b b' hb hb' hne a ⟨v, hv, _⟩
    obtain ⟨j, g1, g2, rfl⟩ := hst b hb a v hv
    have hjn : j < n := by have := htot b hb; omega
    refine ⟨fun h => ?_, fun w h => ?_⟩
    · obtain ⟨k, e1, e2⟩ := ht b' hb'
      rw [e1, seqLoads, e2] at h
      rcases List.mem_cons.1 h with e | h
      · exact hL.outCnt j b' hjn hb' e
      · obtain ⟨i, hi, e | e⟩ := (hp b' hb').2.1 _ h
        · exact hL.outMask j i hjn hi e
        · exact hL.outVal j i hjn hi e
    · obtain ⟨j', k1, k2, e⟩ := hst b' hb' _ w h
      have hjn' : j' < n := by have := htot b' hb'; omega
      have := hL.out j j' hjn hjn' e
      rcases Nat.lt_or_gt_of_ne hne with l | l
      · have := hmono b b' l hb'; omega
      · have := hmono b' b l hb; omega
  subst h2
  have hw := C87_as_if_serial _ (pickTask n M) s1.mem (cumStores M s1.mem 0 ((n + 16383) / 16384) 0 ++ rest) (F, v2) (by rw [hm2]; exact hd) hu2 acts2 hret2
  refine ⟨fun j i hj => ?_, fun c => ⟨hb1 c, hw.2 c⟩⟩
  rw [hw.1, hm2]
  show serial (pickTask n M) 0 ((n + 16383) / 16384) m2 _ = _
  -- the block of element i
  have hi : i < n := by
    have := List.mem_of_getElem? hj
    simp only [hits, List.mem_filter, List.mem_range] at this
    exact this.1
  have hbi : i / 16384 < (n + 16383) / 16384 := by omega
  -- j lies in the block's part of the hits
  have hcut : hits = hitsIn M saw 0 (16384 * (i / 16384)) ++ hitsIn M saw (16384 * (i / 16384)) (min 16384 (n - 16384 * (i / 16384))) ++
      hitsIn M saw (16384 * (i / 16384) + min 16384 (n - 16384 * (i / 16384))) (n - (16384 * (i / 16384) + min 16384 (n - 16384 * (i / 16384)))) := by
    rw [hhits]
    conv_lhs => rw [show n = (16384 * (i / 16384) + min 16384 (n - 16384 * (i / 16384))) + (n - (16384 * (i / 16384) + min 16384 (n - 16384 * (i / 16384)))) by omega]
    rw [hitsIn_add, hitsIn_add]
    simp only [Nat.zero_add]
  have hmem : ∀ i0 k x, x ∈ hitsIn M saw i0 k → i0 ≤ x ∧ x < i0 + k := by
    intro i0 k x hx
    simp only [hitsIn, List.mem_filter, List.mem_range'_1] at hx
    exact hx.1
  rw [hcut] at hj
  have hj1 : (hitsIn M saw 0 (16384 * (i / 16384))).length ≤ j := by
    refine Nat.le_of_not_lt fun hlt => ?_
    rw [List.append_assoc, List.getElem?_append_left hlt] at hj
    have := hmem _ _ _ (List.mem_of_getElem? hj)
    omega
  have hj2 : j < (hitsIn M saw 0 (16384 * (i / 16384))).length + (hitsIn M saw (16384 * (i / 16384)) (min 16384 (n - 16384 * (i / 16384)))).length := by
    refine Nat.lt_of_not_le fun hle => ?_
    rw [List.getElem?_append_right (by rw [List.length_append]; exact hle)] at hj
    have := hmem _ _ _ (List.mem_of_getElem? hj)
    omega
  rw [List.getElem?_append_left (by rw [List.length_append]; exact hj2), List.getElem?_append_right hj1] at hj
  rw [serial_owner hd hbi]
  · obtain ⟨k, e1, e2⟩ := ht _ hbi
    rw [e1, seqRun, e2]
    have := (hp _ hbi).2.2.2 _ i hj
    rwa [show (hitsIn M saw 0 (16384 * (i / 16384))).length + (j - (hitsIn M saw 0 (16384 * (i / 16384))).length) = j by omega] at this
  · intro b' hb' hne v h
    obtain ⟨j', k1, k2, e⟩ := hst b' hb' _ v h
    have hjn : j < n := by have := htot _ hbi; omega
    have hjn' : j' < n := by have := htot b' hb'; omega
    have := hL.out j j' hjn hjn' e
    rcases Nat.lt_or_gt_of_ne hne with l | l
    · have := hmono _ _ l hbi; omega
    · have := hmono _ _ l hb'; omega

/-- Case: three elements, one worker. Cells 0 to 2 are the mask, 10 the count of the only chunk, 20 to 22 the values, 30 to 32 the result, 100 publishes the items.
The caller's store that sets mask byte 1 and its store of value 22 are still on their way when the first pass starts; the worker's stores reach memory late. -/
def maskCells : MaskCells Int :=
  { isSet := fun v => v != 0, num := fun k => k, toNat := Int.toNat, mask := fun i => i, cnt := fun b => 10 + b, val := fun i => 20 + i, out := fun i => 30 + i }
def maskMem (a : Nat) : Int := if a = 2 then 1 else if a = 20 then 5 else if a = 21 then 6 else 0
def maskRun : List Act := [.drain 0, .drain 0] ++ (List.replicate 24 [Act.go 1, .go 0, .drain 0, .drain 1]).flatten
def maskS1 : TsoCounter.St Int := exec { n := (3 + 16383) / 16384, skip0 := false, wakeup := 1 } (countTask 3 maskCells) maskMem [(1, 1), (22, 7)] (100, 1) maskRun
def maskS2 : TsoCounter.St Int :=
  exec { n := (3 + 16383) / 16384, skip0 := false, wakeup := 1 } (pickTask 3 maskCells) maskS1.mem (cumStores maskCells maskS1.mem 0 ((3 + 16383) / 16384) 0 ++ [(50, 3)]) (100, 2) maskRun

theorem maskLayout : MaskLayout maskCells 3 100 := by
  constructor <;> simp only [maskCells] <;> intros <;> omega

theorem maskS1_returned : maskS1.ctl.pc 0 = .returned := by decide +kernel
theorem maskS2_returned : maskS2.ctl.pc 0 = .returned := by decide +kernel

example : maskS2.mem 30 = 6 ∧ maskS2.mem 31 = 7 := by
  have h := C87_mask 3 1 1 maskCells maskMem [(1, 1), (22, 7)] [(50, 3)] 100 1 2 maskLayout ⟨by decide, by decide⟩ (by decide)
    (by intro p hp; obtain rfl : p = (50, 3) := by simpa using hp
        exact ⟨by decide, fun j hj => by simp only [maskCells]; omega, fun b hb => by simp only [maskCells]; omega⟩)
    maskRun maskRun maskS1 maskS2 rfl maskS1_returned rfl maskS2_returned
  have h0 := h.1 0 1 (by decide +kernel)
  have h1 := h.1 1 2 (by decide +kernel)
  rw [show maskCells.out 0 = 30 from rfl] at h0
  rw [show maskCells.out 1 = 31 from rfl] at h1
  rw [h0, h1]
  decide +kernel

/-! ### Record arrays -/

theorem copyCode_loads : ∀ (l : List (Nat × Nat)) (m : Nat → V), seqLoads (copyCode l) m = l.map Prod.fst := by
  intro l
  induction l with
  | nil => intro m; rfl
  | cons p l ih => intro m; rw [copyCode, seqLoads, seqLoads, ih]; rfl

theorem copyCode_stores : ∀ (l : List (Nat × Nat)) (m : Nat → V) (d : Nat) (v : V), (d, v) ∈ seqStores (copyCode l) m → ∃ p ∈ l, p.2 = d := by
  intro l
  induction l with
  | nil => intro m d v h; cases h
  | cons p l ih =>
    intro m d v h
    rw [copyCode, seqStores, seqStores] at h
    rcases List.mem_cons.1 h with e | h
    · exact ⟨p, List.mem_cons_self, (Prod.mk.inj e).1.symm⟩
    · obtain ⟨q, hq, e⟩ := ih _ d v h
      exact ⟨q, List.mem_cons_of_mem _ hq, e⟩

theorem copyCode_run : ∀ (l : List (Nat × Nat)) (m m0 : Nat → V), (∀ p ∈ l, ∀ q ∈ l, p.2 ≠ q.1) → (∀ p ∈ l, ∀ q ∈ l, p.2 = q.2 → p.1 = q.1) →
    (∀ p ∈ l, m p.1 = m0 p.1) → ∀ d, ((∀ p ∈ l, p.2 ≠ d) → seqRun (copyCode l) m d = m d) ∧ ∀ p ∈ l, p.2 = d → seqRun (copyCode l) m d = m0 p.1 := by
  intro l
  induction l with
  | nil => intro m m0 _ _ _ d; exact ⟨fun _ => rfl, fun p h => by cases h⟩
  | cons p l ih =>
    intro m m0 h1 h2 h3 d
    have hp : p ∈ p :: l := List.mem_cons_self
    obtain ⟨f1, f2⟩ := ih (fun x => if x = p.2 then m p.1 else m x) m0 (fun a ha b hb => h1 a (List.mem_cons_of_mem _ ha) b (List.mem_cons_of_mem _ hb))
      (fun a ha b hb => h2 a (List.mem_cons_of_mem _ ha) b (List.mem_cons_of_mem _ hb))
      (fun a ha => by rw [if_neg (fun e => h1 p hp a (List.mem_cons_of_mem _ ha) e.symm)]; exact h3 a (List.mem_cons_of_mem _ ha)) d
    rw [copyCode, seqRun, seqRun]
    refine ⟨fun h => ?_, fun q hq e => ?_⟩
    · rw [f1 (fun a ha => h a (List.mem_cons_of_mem _ ha)), if_neg (fun e => h p hp e.symm)]
    · rcases List.mem_cons.1 hq with rfl | hq'
      · by_cases hx : ∃ a ∈ l, a.2 = d
        · obtain ⟨a, ha, ea⟩ := hx
          rw [f2 a ha ea, h2 a (List.mem_cons_of_mem _ ha) q hp (ea.trans e.symm)]
        · rw [f1 (fun a ha ea => hx ⟨a, ha, ea⟩), if_pos e.symm]
          exact h3 q hp
      · exact f2 q hq' e

/-- The copies of a work item: exactly the bytes of every field of every row of its block. -/
theorem mem_convCopies (R : RecCells) (isz chunk : Nat) (hc : 0 < chunk) (cols : List RecArray.Col) (s e : Nat) (p : Nat × Nat) :
    p ∈ convCopies R isz chunk cols s e ↔ ∃ i c r k, cols[i]? = some c ∧ s ≤ r ∧ r < e ∧ k < c.itemsize ∧
      p = (R.src (r * isz + c.readoffset.toNat + k), R.out i (r * c.itemsize + k)) := by
  simp only [convCopies, columnCopies, List.mem_flatMap, List.mem_map, List.mem_range, List.mem_range'_1]
  constructor
  · rintro ⟨q, hq, ⟨c, i⟩, hci, r, ⟨h1, h2⟩, k, hk, rfl⟩
    refine ⟨i, c, r, k, List.mem_zipIdx_iff_getElem?.1 hci, ?_, ?_, hk, rfl⟩
    · exact Nat.le_trans (Nat.le_add_right _ _) h1
    · omega
  · rintro ⟨i, c, r, k, hci, h1, h2, hk, rfl⟩
    have hd : (r - s) / chunk * chunk + (r - s) % chunk = r - s := by rw [Nat.mul_comm]; exact Nat.div_add_mod _ _
    have hm := Nat.mod_lt (r - s) hc
    refine ⟨(r - s) / chunk, ?_, (c, i), List.mem_zipIdx_iff_getElem?.2 hci, r, ?_, k, hk, rfl⟩
    · rw [Nat.lt_div_iff_mul_lt hc]
      omega
    · omega

/-- The arrays of a conversion are different pieces of memory: no two output bytes share a cell, no output byte is a byte of the records. -/
structure RecLayout (R : RecCells) (isz rows : Nat) (cols : List RecArray.Col) : Prop where
  out : ∀ i c p i' c' p', cols[i]? = some c → cols[i']? = some c' → p < rows * c.itemsize → p' < rows * c'.itemsize → R.out i p = R.out i' p' → i = i' ∧ p = p'
  src : ∀ i c p q, cols[i]? = some c → p < rows * c.itemsize → q < rows * isz → R.out i p ≠ R.src q

/-- **C87 for the record array conversion** (more than 16384 rows, one work item per 16384 rows, in index mode): any number of rows, fields and threads, any schedule, any
delay of the stores, whatever stores of the caller were on their way at the call: when the call has returned, byte `k` of row `r` of output array
`i` is what the caller saw in byte `k` of the field in record `r`; every other cell holds what the caller last stored there; no store is on its way. -/
theorem C87_recarray [DecidableEq V] (rows isz chunk wakeup : Nat) (hc : 0 < chunk) (cols : List RecArray.Col) (R : RecCells) (hv : ∀ c ∈ cols, c.readoffset.toNat + c.itemsize ≤ isz)
    (hL : RecLayout R isz rows cols) (mem : Nat → V) (before : List (Nat × V)) (flag : Nat × V) (hu : Unpublished mem before flag) (acts : List Act) (s : TsoCounter.St V)
    (hs : s = exec { n := (rows + 16383) / 16384, skip0 := true, wakeup } (recTask R isz chunk cols rows) mem before flag acts) (hret : s.ctl.pc 0 = .returned) :
    let saw := lastStored mem (before ++ [flag])
    (∀ i c r k, cols[i]? = some c → r < rows → k < c.itemsize → s.mem (R.out i (r * c.itemsize + k)) = saw (R.src (r * isz + c.readoffset.toNat + k))) ∧
    (∀ a, (∀ i c r k, cols[i]? = some c → r < rows → k < c.itemsize → a ≠ R.out i (r * c.itemsize + k)) → s.mem a = saw a) ∧
    ∀ c, s.buf c = [] := by
  intro saw
  have hsaw : lastStored mem (before ++ [flag]) = saw := rfl
  subst hs
  have hpos : ∀ {r w k : Nat}, r < rows → k < w → r * w + k < rows * w := by
    intro r w k hr hk
    have := Nat.mul_le_mul_right w (Nat.succ_le_of_lt hr)
    rw [Nat.succ_mul] at this
    omega
  have huniq : ∀ {r r' w k k' : Nat}, k < w → k' < w → r * w + k = r' * w + k' → r = r' ∧ k = k' := by
    intro r r' w k k' hk hk' e
    have e1 : (r * w + k) / w = r := by rw [Nat.mul_comm, Nat.mul_add_div (by omega), Nat.div_eq_of_lt hk, Nat.add_zero]
    have e2 : (r' * w + k') / w = r' := by rw [Nat.mul_comm, Nat.mul_add_div (by omega), Nat.div_eq_of_lt hk', Nat.add_zero]
    have : r = r' := by rw [← e1, e, e2]
    subst this
    exact ⟨rfl, by omega⟩
  have hmem := fun b => mem_convCopies R isz chunk hc cols (RecArray.rowBlock rows b).1 (RecArray.rowBlock rows b).2
  have hblk : ∀ {b r}, (RecArray.rowBlock rows b).1 ≤ r → r < (RecArray.rowBlock rows b).2 → r < rows ∧ r / 16384 = b := by
    intro b r h1 h2
    simp only [RecArray.rowBlock] at h1 h2
    split at h2 <;> omega
  have hblk' : ∀ {r}, r < rows → (RecArray.rowBlock rows (r / 16384)).1 ≤ r ∧ r < (RecArray.rowBlock rows (r / 16384)).2 := by
    intro r h
    simp only [RecArray.rowBlock]
    split <;> omega
  have hsrc : ∀ b p, p ∈ convCopies R isz chunk cols (RecArray.rowBlock rows b).1 (RecArray.rowBlock rows b).2 → ∀ b' q,
      q ∈ convCopies R isz chunk cols (RecArray.rowBlock rows b').1 (RecArray.rowBlock rows b').2 → p.2 ≠ q.1 ∧ (p.2 = q.2 → b = b' ∧ p.1 = q.1) := by
    intro b p hp b' q hq
    obtain ⟨i, c, r, k, hi, h1, h2, hk, rfl⟩ := (hmem b p).1 hp
    obtain ⟨i', c', r', k', hi', h1', h2', hk', rfl⟩ := (hmem b' q).1 hq
    obtain ⟨hr, eb⟩ := hblk h1 h2
    obtain ⟨hr', eb'⟩ := hblk h1' h2'
    refine ⟨hL.src i c _ _ hi (hpos hr hk) ?_, fun e0 => ?_⟩
    · have := hv c' (List.mem_of_getElem? hi')
      rw [Nat.add_assoc]
      exact hpos hr' (by omega)
    · obtain ⟨rfl, e⟩ := hL.out i c _ i' c' _ hi hi' (hpos hr hk) (hpos hr' hk') e0
      obtain rfl : c = c' := by rw [hi] at hi'; exact Option.some.inj hi'
      obtain ⟨rfl, rfl⟩ := huniq hk hk' e
      exact ⟨eb.symm.trans eb', rfl⟩
  have hd : TasksApart ((rows + 16383) / 16384) (recTask (V := V) R isz chunk cols rows) saw := by
    rintro b b' hb hb' hne a ⟨v, hv', _⟩
    obtain ⟨p, hp, rfl⟩ := copyCode_stores _ _ _ _ hv'
    refine ⟨fun h => ?_, fun w h => ?_⟩
    · unfold recTask at h
      rw [copyCode_loads] at h
      obtain ⟨q, hq, e⟩ := List.mem_map.1 h
      exact (hsrc b p hp b' q hq).1 e.symm
    · obtain ⟨q, hq, e⟩ := copyCode_stores _ _ _ _ h
      exact hne ((hsrc b p hp b' q hq).2 e.symm).1
  have hw := C87_as_if_serial _ _ mem before flag hd hu acts hret
  rw [hsaw] at hw
  refine ⟨fun i c r k hi hr hk => ?_, fun a ha => ?_, hw.2⟩
  · have hb : r / 16384 < (rows + 16383) / 16384 := by omega
    have hp := (hmem (r / 16384) (R.src (r * isz + c.readoffset.toNat + k), R.out i (r * c.itemsize + k))).2
      ⟨i, c, r, k, hi, (hblk' hr).1, (hblk' hr).2, hk, rfl⟩
    rw [hw.1]
    show serial (recTask R isz chunk cols rows) 0 ((rows + 16383) / 16384) saw _ = _
    rw [serial_owner hd hb]
    · exact (copyCode_run _ saw saw (fun a ha q hq => (hsrc _ a ha _ q hq).1) (fun a ha q hq e => ((hsrc _ a ha _ q hq).2 e).2) (fun _ _ => rfl) _).2 _ hp rfl
    · intro b' hb' hne v h
      obtain ⟨q, hq, e⟩ := copyCode_stores _ _ _ _ h
      exact hne ((hsrc _ _ hp b' q hq).2 e.symm).1.symm
  · rw [hw.1]
    show serial (recTask R isz chunk cols rows) 0 ((rows + 16383) / 16384) saw _ = _
    refine serial_none hd fun b hb v h => ?_
    obtain ⟨q, hq, e⟩ := copyCode_stores _ _ _ _ h
    obtain ⟨i, c, r, k, hi, h1, h2, hk, rfl⟩ := (hmem b q).1 hq
    exact ha i c r k hi (hblk h1 h2).1 hk e.symm

/-- Case: two fields (bytes 0 and 1..2 of records of 3 bytes) of two rows, chunks of one row, caller and one worker; cells 0..5 the records, 10.. and 20.. the outputs. The
store of byte 4 is on its way when the call is made. -/
def recCells : RecCells := { src := fun q => q, out := fun i p => 10 + 10 * i + p }
def recCols : List RecArray.Col := [⟨0, 1⟩, ⟨1, 2⟩]
def recMem (a : Nat) : Int := if a < 6 then a + 50 else 0
def recRun : List Act := (List.replicate 24 [Act.go 1, .go 0, .drain 0, .drain 1]).flatten
def recS : TsoCounter.St Int := exec { n := (2 + 16383) / 16384, skip0 := true, wakeup := 1 } (recTask recCells 3 1 recCols 2) recMem [(4, 99)] (100, 1) recRun

theorem recLayout : RecLayout recCells 3 2 recCols := by
  have hc : ∀ i c, recCols[i]? = some c → i < 2 ∧ c.itemsize ≤ 2 := by
    intro i c h
    match i, h with
    | 0, h => cases h; exact ⟨by decide, by decide⟩
    | 1, h => cases h; exact ⟨by decide, by decide⟩
    | i + 2, h => simp [recCols] at h
  constructor
  · intro i c p i' c' p' h h' hp hp' e
    have := hc i c h
    have := hc i' c' h'
    have : 2 * c.itemsize ≤ 4 := by omega
    have : 2 * c'.itemsize ≤ 4 := by omega
    simp only [recCells] at e
    omega
  · intro i c p q h hp hq e
    simp only [recCells] at e
    omega

theorem recS_returned : recS.ctl.pc 0 = .returned := by decide +kernel

example : recS.mem 22 = 99 ∧ recS.mem 11 = 53 := by
  have h := C87_recarray 2 3 1 1 (by decide) recCols recCells (by decide) recLayout recMem [(4, 99)] (100, 1) ⟨by decide, by decide⟩ recRun recS rfl recS_returned
  have h0 := h.1 1 ⟨1, 2⟩ 1 0 rfl (by decide) (by decide)
  have h1 := h.1 0 ⟨0, 1⟩ 1 0 rfl (by decide) (by decide)
  simp only [show recCells.out 1 (1 * 2 + 0) = 22 from rfl] at h0
  simp only [show recCells.out 0 (1 * 1 + 0) = 11 from rfl] at h1
  rw [h0, h1]
  decide +kernel

end Pnumpy.Props
