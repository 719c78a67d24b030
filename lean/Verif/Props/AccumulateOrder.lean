import Verif.Props.Accumulate
/-
Property theorems C10: which threaded runs of accumulate are right.
-/
namespace Pnumpy.Props
open Pnumpy.Spec Pnumpy.Elem Pnumpy.Accum
variable {α : Type}

theorem accSpec_add (f : α → α → α) (g : Nat → α) (b : Nat) : ∀ i,
    accSpec f (fun j => if j = 0 then accSpec f g b else g (b + j)) i = accSpec f g (b + i)
  | 0 => by simp [accSpec]
  | i + 1 => by
    show f (accSpec f _ i) _ = f (accSpec f g (b + i)) (g (b + i + 1))
    rw [accSpec_add f g b i]; simp [Nat.add_assoc]

/-- Number of elements of block `b` of `n`. -/
def blockCount (n b : Nat) : Nat := min 16384 (n - 16384 * b)

def toCall (n b : Nat) : Nat × Nat := (16384 * b, blockCount n b)

/-- The layout keeps the output cells apart from each other and from other elements' inputs. -/
def Apart (pin si po so : Int) (n : Nat) : Prop :=
  ∀ i j : Nat, i < n + 1 → j < n + 1 → i ≠ j → po + so * i ≠ po + so * j ∧ po + so * i ≠ pin + si * j

theorem run_block (f : α → α → α) (pin si po so : Int) (n tag b : Nat) (s : MState α) (hd : Apart pin si po so n) (hb : 16384 * b < n) :
    ∃ s', run f s ((scalarLoop (strided ((accArgs pin si po so).at (16384 * b)).p1 so)
        (strided ((accArgs pin si po so).at (16384 * b)).p2 si) (strided ((accArgs pin si po so).at (16384 * b)).po so) 0 (blockCount n b)).map
        fun e => (tag, e)) = some s' ∧
      (∀ i : Nat, i ≤ blockCount n b → s'.mem (po + so * ((16384 * b + i : Nat) : Int)) =
        accSpec f (fun j => if j = 0 then s.mem (po + so * ((16384 * b : Nat) : Int))
          else s.mem (pin + si * ((16384 * b + j : Nat) : Int))) i) ∧
      (∀ a, (∀ i : Nat, 1 ≤ i → i ≤ blockCount n b → a ≠ po + so * ((16384 * b + i : Nat) : Int)) → s'.mem a = s.mem a) := by
  have := run_acc f pin si po so tag (16384 * b) s (blockCount n b)
    (fun i j hi hj => hd i j (by unfold blockCount at hi; omega) (by unfold blockCount at hj; omega))
  exact this

/-- The accesses of a list of blocks. -/
def blocksFrom (pin si po so : Int) (n tag : Nat) (L : List Nat) : List (Nat × Acc) :=
  ((L.map (toCall n)).zipIdx tag).flatMap fun c =>
    (scalarLoop (strided ((accArgs pin si po so).at c.1.1).p1 so) (strided ((accArgs pin si po so).at c.1.1).p2 si)
      (strided ((accArgs pin si po so).at c.1.1).po so) 0 c.1.2).map fun e => (c.2, e)

theorem blocksFrom_cons (pin si po so : Int) (n tag b : Nat) (L : List Nat) :
    blocksFrom pin si po so n tag (b :: L) =
      ((scalarLoop (strided ((accArgs pin si po so).at (16384 * b)).p1 so) (strided ((accArgs pin si po so).at (16384 * b)).p2 si)
        (strided ((accArgs pin si po so).at (16384 * b)).po so) 0 (blockCount n b)).map fun e => (tag, e)) ++
      blocksFrom pin si po so n (tag + 1) L := by
  simp [blocksFrom, toCall]

theorem blocksFrom_append (pin si po so : Int) (n : Nat) : ∀ (L M : List Nat) (tag : Nat),
    blocksFrom pin si po so n tag (L ++ M) = blocksFrom pin si po so n tag L ++ blocksFrom pin si po so n (tag + L.length) M
  | [], M, tag => by simp [blocksFrom]
  | b :: L, M, tag => by
    rw [List.cons_append, blocksFrom_cons, blocksFrom_cons, blocksFrom_append pin si po so n L M, List.append_assoc,
      List.length_cons, show tag + 1 + L.length = tag + (L.length + 1) by omega]

/-- Whatever the order, a list of blocks runs and writes only the cells of its blocks. -/
theorem run_blocks (f : α → α → α) (pin si po so : Int) (n : Nat) (hd : Apart pin si po so n) :
    ∀ (L : List Nat) (tag : Nat) (s : MState α), (∀ b ∈ L, 16384 * b < n) →
    ∃ s', run f s (blocksFrom pin si po so n tag L) = some s' ∧
      ∀ a, (∀ b ∈ L, ∀ i : Nat, 1 ≤ i → i ≤ blockCount n b → a ≠ po + so * ((16384 * b + i : Nat) : Int)) → s'.mem a = s.mem a
  | [], tag, s, _ => ⟨s, rfl, fun _ _ => rfl⟩
  | b :: L, tag, s, hL => by
    obtain ⟨s1, r1, _, u1⟩ := run_block f pin si po so n tag b s hd (hL b List.mem_cons_self)
    obtain ⟨s2, r2, u2⟩ := run_blocks f pin si po so n hd L (tag + 1) s1 (fun c hc => hL c (List.mem_cons_of_mem _ hc))
    refine ⟨s2, by rw [blocksFrom_cons, run_append, r1]; exact r2, fun a ha => ?_⟩
    rw [u2 a fun c hc => ha c (List.mem_cons_of_mem _ hc), u1 a (ha b List.mem_cons_self)]

/-- Blocks in ascending order compute the prefix combinations. -/
theorem run_ascending (f : α → α → α) (pin si po so : Int) (n : Nat) (hd : Apart pin si po so n) (m : Int → α) (h0 : m po = m pin) :
    ∀ c : Nat, (∀ b, b < c → 16384 * b < n) →
    ∃ s', run f ⟨m, fun _ _ => none⟩ (blocksFrom pin si po so n 0 (List.range c)) = some s' ∧
      (∀ i : Nat, i ≤ n → i ≤ 16384 * c → s'.mem (po + so * (i : Int)) = accSpec f (fun j => m (pin + si * (j : Int))) i) ∧
      ∀ a, (∀ i : Nat, 1 ≤ i → i ≤ n → i ≤ 16384 * c → a ≠ po + so * (i : Int)) → s'.mem a = m a
  | 0, _ => by
    refine ⟨⟨m, fun _ _ => none⟩, rfl, fun i _ hi => ?_, fun _ _ => rfl⟩
    have : i = 0 := by omega
    subst this
    simpa [accSpec] using h0
  | c + 1, hc => by
    obtain ⟨s1, r1, v1, u1⟩ := run_ascending f pin si po so n hd m h0 c (fun b hb => hc b (by omega))
    have hcn := hc c (by omega)
    obtain ⟨s2, r2, v2, u2⟩ := run_block f pin si po so n (0 + c) c s1 hd hcn
    refine ⟨s2, ?_, ?_, ?_⟩
    · rw [List.range_succ, blocksFrom_append, run_append, r1, List.length_range, blocksFrom_cons]
      simp only [Option.bind_some, blocksFrom, List.map_nil, List.zipIdx_nil, List.flatMap_nil, List.append_nil]
      exact r2
    · intro i hin hic
      by_cases hlt : i ≤ 16384 * c
      · by_cases he : i = 16384 * c
        · have := v2 0 (by omega)
          simp only [Nat.add_zero, accSpec, if_true] at this
          rw [he, this, v1 _ (by omega) (Nat.le_refl _)]
        · rw [u2 _ (fun j h1 h2 => (hd i (16384 * c + j) (by omega) (by unfold blockCount at h2; omega) (by omega)).1), v1 i hin hlt]
      · obtain ⟨j, rfl⟩ : ∃ j, i = 16384 * c + j := ⟨i - 16384 * c, by omega⟩
        rw [v2 j (by unfold blockCount; omega), ← accSpec_add f _ (16384 * c) j]
        have hj : j ≤ n - 16384 * c := by omega
        clear hin hic hlt
        induction j with
        | zero => simp only [accSpec, if_true]; exact v1 _ (by omega) (Nat.le_refl _)
        | succ j ih =>
          simp only [accSpec]
          rw [ih (by omega)]
          simp only [Nat.succ_ne_zero, if_false, Nat.add_eq_zero_iff, Nat.one_ne_zero, and_false]
          congr 1
          exact u1 _ fun i' h1 h2 h3 => Ne.symm (hd i' (16384 * c + (j + 1)) (by omega) (by omega) (by omega)).2
    · intro a ha
      rw [u2 a (fun j h1 h2 => ha (16384 * c + j) (by omega) (by unfold blockCount at h2; omega) (by unfold blockCount at h2; omega)),
        u1 a (fun i h1 h2 h3 => ha i h1 h2 (by omega))]

/-- A list of distinct numbers below its length that is not in order has some `b + 1` before `b`. -/
theorem inversion : ∀ {N : Nat} {L : List Nat}, L.Nodup → (∀ b, b ∈ L ↔ b < N) → ¬ L.Pairwise (· < ·) →
    ∃ b l₁ l₂, L = l₁ ++ (b + 1) :: l₂ ∧ b ∉ l₁ ∧ b ∈ l₂ := by
  intro N L hn hm hp
  refine Classical.byContradiction fun hcon => hp ?_
  -- every prefix is closed under predecessor
  have closed : ∀ l₁ l₂, L = l₁ ++ l₂ → ∀ b, b + 1 ∈ l₁ → b ∈ l₁ := by
    intro l₁ l₂ hL b hb
    refine Classical.byContradiction fun hnb => hcon ?_
    obtain ⟨u, v, rfl⟩ := List.append_of_mem hb
    refine ⟨b, u, v ++ l₂, by rw [hL]; simp, fun h => hnb (by simp [h]), ?_⟩
    have : b ∈ L := (hm b).mpr (by
      have : b + 1 ∈ L := by rw [hL]; simp
      have := (hm _).mp this; omega)
    rw [hL] at this
    simp only [List.mem_append, List.mem_cons] at this ⊢
    rcases this with (h | h | h) | h
    · exact absurd (by simp [h]) hnb
    · omega
    · exact Or.inl h
    · exact Or.inr h
  have down : ∀ l₁ l₂, L = l₁ ++ l₂ → ∀ c b, b + c ∈ l₁ → b ∈ l₁ := by
    intro l₁ l₂ hL c
    induction c with
    | zero => exact fun b h => h
    | succ c ih => exact fun b h => ih b (closed l₁ l₂ hL (b + c) h)
  rw [List.pairwise_iff_forall_sublist]
  intro a b hab
  refine Classical.byContradiction fun hlt => ?_
  -- `a` comes before `b` and `b ≤ a`
  obtain ⟨r₁, r₂, hL, ha, hb⟩ := List.cons_sublist_iff.mp hab
  have hb' : b ∈ r₂ := by simpa using hb
  have hba : b ∈ r₁ := down r₁ r₂ hL (a - b) b (by rw [show b + (a - b) = a by omega]; exact ha)
  rw [hL] at hn
  exact (List.nodup_append.mp hn).2.2 b hba b hb' rfl

/-- If block `b + 1` runs before block `b`, the first element after the border is computed from what was in the output before. -/
theorem run_inverted (pin si po so : Int) (n : Nat) (hd : Apart pin si po so n) (m : Int → BitVec 64)
    (l₁ l₂ : List Nat) (b : Nat) (hn : (l₁ ++ (b + 1) :: l₂).Nodup) (hL : ∀ c ∈ l₁ ++ (b + 1) :: l₂, 16384 * c < n) (hb : b ∉ l₁) :
    ∃ s', run (· + ·) ⟨m, fun _ _ => none⟩ (blocksFrom pin si po so n 0 (l₁ ++ (b + 1) :: l₂)) = some s' ∧
      s'.mem (po + so * ((16384 * (b + 1) + 1 : Nat) : Int)) =
        m (po + so * ((16384 * (b + 1) : Nat) : Int)) + m (pin + si * ((16384 * (b + 1) + 1 : Nat) : Int)) := by
  have hnb : 16384 * (b + 1) < n := hL (b + 1) (by simp)
  have hn' := List.nodup_append.mp hn
  have hnot1 : b + 1 ∉ l₁ := fun h => hn'.2.2 _ h _ List.mem_cons_self rfl
  have hnot2 : b + 1 ∉ l₂ := (List.nodup_cons.mp hn'.2.1).1
  obtain ⟨s1, r1, u1⟩ := run_blocks (· + ·) pin si po so n hd l₁ 0 ⟨m, fun _ _ => none⟩ (fun c hc => hL c (by simp [hc]))
  obtain ⟨s2, r2, v2, _⟩ := run_block (· + ·) pin si po so n (0 + l₁.length) (b + 1) s1 hd hnb
  obtain ⟨s3, r3, u3⟩ := run_blocks (· + ·) pin si po so n hd l₂ (0 + l₁.length + 1) s2 (fun c hc => hL c (by simp [hc]))
  refine ⟨s3, ?_, ?_⟩
  · rw [blocksFrom_append, run_append, r1, Option.bind_some, blocksFrom_cons, run_append, r2, Option.bind_some]; exact r3
  · rw [u3 _ fun c hc i h1 h2 => (hd _ _ (by omega) (by have := hL c (by simp [hc]); unfold blockCount at h2; omega) (by
      have : c ≠ b + 1 := fun e => hnot2 (e ▸ hc)
      unfold blockCount at h2; omega)).1]
    rw [v2 1 (by unfold blockCount; omega)]
    simp only [accSpec, if_true, Nat.one_ne_zero, if_false, Nat.zero_add]
    refine congrArg₂ (· + ·) ?_ ?_
    · exact u1 _ fun c hc i h1 h2 => (hd _ _ (by omega) (by have := hL c (by simp [hc]); unfold blockCount at h2; omega) (by
        have : c ≠ b := fun e => hb (e ▸ hc)
        unfold blockCount at h2; omega)).1
    · exact u1 _ fun c hc i h1 h2 => Ne.symm (hd _ _ (by have := hL c (by simp [hc]); unfold blockCount at h2; omega) (by omega) (by
        have : c ≠ b + 1 := fun e => hnot1 (e ▸ hc)
        unfold blockCount at h2; omega)).2

/-- What is known of the blocks of a complete threaded run. -/
theorem complete_log {n : Nat} {req : Int} {mw zz : Nat} {sched : List Nat}
    (hret : (Work.exec (ufuncItem n req mw zz) sched).pc 0 = .returned) :
    ∃ L : List Nat, L.Nodup ∧ (∀ b, b ∈ L ↔ b < (n + 16383) / 16384) ∧
      (Work.kernelCalls (ufuncItem n req mw zz) (Work.exec (ufuncItem n req mw zz) sched)).reverse = L.map (toCall n) := by
  have wf := Work.setup_wf n req mw Work.CHUNK true zz
  have hi := Work.inv_exec (it := ufuncItem n req mw zz) wf sched
  have hdone := hi.retDone 0 hret
  have hbl : (ufuncItem n req mw zz).blockLast = (n + 16383) / 16384 := Work.blockLast_generic n req mw zz
  have hlt : ∀ b ∈ (Work.exec (ufuncItem n req mw zz) sched).log, b < (ufuncItem n req mw zz).blockLast :=
    fun b hb => Work.Inv.claimed_lt wf (hi.logClaimed b hb)
  refine ⟨(Work.exec (ufuncItem n req mw zz) sched).log.reverse, (List.reverse_perm _).nodup_iff.mpr hi.logNodup, ?_, ?_⟩
  · intro b
    rw [List.mem_reverse, ← hbl]
    refine ⟨hlt b, fun hb => hi.doneLog b ?_⟩
    exact Work.nodup_full hi.doneNodup (fun x hx => hlt x (hi.doneLog x hx)) (by rw [hi.doneLen]; exact hdone) b hb
  · rw [Work.kernelCalls, ← List.map_reverse]
    refine List.map_congr_left fun b hb => ?_
    have := Work.blockLen_generic n req mw zz b (hlt b (List.mem_reverse.mp hb))
    simp only [toCall, blockCount]
    exact congrArg₂ Prod.mk rfl this.1

theorem blocksInOrder_eq (enabled : Bool) (k : Kernel) (hv : k.Valid) (hk : isArith k = true)
    (hsz : ∀ z, (k = .slow z ∨ k = .fastDouble z) → 0 < z ∧ z < 64) (pin si po so : Int) (n : Nat) (L : List Nat) :
    blocksInOrder enabled k (accArgs pin si po so) (L.map (toCall n)) = blocksFrom pin si po so n 0 L := by
  unfold blocksInOrder blocksFrom
  simp only [binaryLoop_acc enabled k hv hk hsz]

theorem range_of_sorted {N : Nat} {L : List Nat} (hn : L.Nodup) (hm : ∀ b, b ∈ L ↔ b < N) (hp : L.Pairwise (· < ·)) :
    L = List.range N := by
  refine List.Perm.eq_of_pairwise (le := (· < ·)) ?_ hp List.pairwise_lt_range ?_
  · intro a b _ _ h1 h2; omega
  · exact (List.perm_ext_iff_of_nodup hn List.nodup_range).mpr fun b => by rw [hm, List.mem_range]

/-- **C10, partial** (threaded): if the blocks happen to run in ascending order, a threaded accumulate is right - for every
operation, kernel, stride and length, separate or aliased output; nothing else changes.  Missing: all other orders, for which it
is false (`C10_out_of_order_violated`). -/
theorem C10_in_order_partial (enabled : Bool) (k : Kernel) (hv : k.Valid) (hk : isArith k = true)
    (hsz : ∀ z, (k = .slow z ∨ k = .fastDouble z) → 0 < z ∧ z < 64)
    (f : α → α → α) (pin si po so : Int) (n : Nat) (m : Int → α) (h0 : m po = m pin)
    (hd : ∀ i j : Nat, i < n + 1 → j < n + 1 → i ≠ j → po + so * i ≠ po + so * j ∧ po + so * i ≠ pin + si * j)
    (req : Int) (mw zz : Nat) (sched : List Nat) (hret : (Work.exec (ufuncItem n req mw zz) sched).pc 0 = .returned)
    (calls : List (Nat × Nat))
    (hc : calls = (Work.kernelCalls (ufuncItem n req mw zz) (Work.exec (ufuncItem n req mw zz) sched)).reverse)
    (hord : calls.Pairwise fun c d => c.1 < d.1) :
    ∃ m', runMem f m (blocksInOrder enabled k (accArgs pin si po so) calls) = some m' ∧
      (∀ i : Nat, i < n + 1 → m' (po + so * i) = accSpec f (fun j => m (pin + si * j)) i) ∧
      (∀ a, (∀ i : Nat, i < n + 1 → a ≠ po + so * i) → m' a = m a) := by
  obtain ⟨L, hn, hm, he⟩ := complete_log hret
  rw [← hc] at he
  subst he
  have hp : L.Pairwise (· < ·) := by
    rw [List.pairwise_map] at hord
    exact hord.imp fun h => by simp only [toCall] at h; omega
  have hL := range_of_sorted hn hm hp
  obtain ⟨s', hr, hv', hu⟩ := run_ascending f pin si po so n hd m h0 ((n + 16383) / 16384) (fun b hb => by omega)
  rw [← hL] at hr
  refine ⟨s'.mem, by rw [blocksInOrder_eq enabled k hv hk hsz, runMem, hr]; rfl, fun i hi => hv' i (by omega) (by omega), fun a ha => ?_⟩
  exact hu a fun i _ h2 _ => ha i (by omega)

/-- There are contents for which the output, before the call, does not hold the prefix sum that belongs there. -/
theorem bad_contents (pin si po so : Int) (n K : Nat) (hd : Apart pin si po so n) (h1 : 0 < K) (h2 : K ≤ n) :
    ∃ m : Int → BitVec 64, m po = m pin ∧
      m (po + so * (K : Int)) ≠ accSpec (fun x y => x + y) (fun j => m (pin + si * (j : Int))) K := by
  have out0 : po + so * (K : Int) ≠ pin + si * ((0 : Nat) : Int) := (hd K 0 (by omega) (by omega) (by omega)).2
  have outp : po + so * (K : Int) ≠ po + so * ((0 : Nat) : Int) := (hd K 0 (by omega) (by omega) (by omega)).1
  simp only [Int.natCast_zero, Int.mul_zero, Int.add_zero] at out0 outp
  by_cases hsi : si = 0
  · -- one input cell for all elements
    refine ⟨fun a => if a = po + so * (K : Int) then 1 else 0, ?_, ?_⟩
    · simp only [if_neg (Ne.symm outp), if_neg (Ne.symm out0)]
    · have hz : ∀ k, accSpec (fun x y : BitVec 64 => x + y)
          (fun j => if pin + si * (j : Int) = po + so * (K : Int) then 1 else 0) k = 0 := by
        intro k
        have hin : ∀ j : Nat, ¬ pin + si * (j : Int) = po + so * (K : Int) := by
          intro j; rw [hsi, Int.zero_mul, Int.add_zero]; exact Ne.symm out0
        induction k with
        | zero => simp only [accSpec]; rw [if_neg (hin 0)]
        | succ k ih => simp only [accSpec]; rw [ih, if_neg (hin _)]; rfl
      simp only [if_true]
      rw [hz]; decide
  · refine ⟨fun a => if a = po ∨ a = pin then 1 else 0, by simp, ?_⟩
    have hz : ∀ k, k < n + 1 → accSpec (fun x y : BitVec 64 => x + y)
        (fun j => if pin + si * (j : Int) = po ∨ pin + si * (j : Int) = pin then 1 else 0) k = 1 := by
      intro k hk
      induction k with
      | zero => simp [accSpec]
      | succ k ih =>
        have h1 : ¬ (pin + si * ((k + 1 : Nat) : Int) = po ∨ pin + si * ((k + 1 : Nat) : Int) = pin) := by
          rintro (e | e)
          · have := (hd 0 (k + 1) (by omega) hk (by omega)).2
            simp only [Int.natCast_zero, Int.mul_zero, Int.add_zero] at this
            exact this e.symm
          · have : si * ((k + 1 : Nat) : Int) = 0 := by omega
            rcases Int.mul_eq_zero.mp this with h | h
            · exact hsi h
            · omega
        simp only [accSpec]
        rw [ih (by omega), if_neg h1]; rfl
    simp only
    rw [hz _ (by omega), if_neg (by rintro (e | e); exacts [outp e, out0 e])]
    decide

/-- **C10 violated** in every other order: whenever the blocks of a threaded accumulate (here of int64 sums) do not run in ascending
order - for every length, stride, thread limit and schedule - there are array contents for which the result is not the prefix
sums. -/
theorem C10_out_of_order_violated (enabled : Bool) (k : Kernel) (hv : k.Valid) (hk : isArith k = true)
    (hsz : ∀ z, (k = .slow z ∨ k = .fastDouble z) → 0 < z ∧ z < 64)
    (pin si po so : Int) (n : Nat)
    (hd : ∀ i j : Nat, i < n + 1 → j < n + 1 → i ≠ j → po + so * i ≠ po + so * j ∧ po + so * i ≠ pin + si * j)
    (req : Int) (mw zz : Nat) (sched : List Nat) (hret : (Work.exec (ufuncItem n req mw zz) sched).pc 0 = .returned)
    (calls : List (Nat × Nat))
    (hc : calls = (Work.kernelCalls (ufuncItem n req mw zz) (Work.exec (ufuncItem n req mw zz) sched)).reverse)
    (hord : ¬ calls.Pairwise fun c d => c.1 < d.1) :
    ∃ (m m' : Int → BitVec 64), m po = m pin ∧
      runMem (fun x y => x + y) m (blocksInOrder enabled k (accArgs pin si po so) calls) = some m' ∧
      ∃ i : Nat, i < n + 1 ∧ m' (po + so * i) ≠ accSpec (fun x y => x + y) (fun j => m (pin + si * j)) i := by
  obtain ⟨L, hn, hm, he⟩ := complete_log hret
  rw [← hc] at he
  subst he
  have hp : ¬ L.Pairwise (· < ·) := by
    intro h
    refine hord ?_
    rw [List.pairwise_map]
    exact h.imp fun h => by simp only [toCall]; omega
  obtain ⟨b, l₁, l₂, rfl, hb1, hb2⟩ := inversion hn hm hp
  have hlt : ∀ c ∈ l₁ ++ (b + 1) :: l₂, 16384 * c < n := fun c hc => by have := (hm c).mp hc; omega
  have hnb := hlt (b + 1) (by simp)
  have hstep : ∀ (m : Int → BitVec 64) (K : Nat), accSpec (fun x y => x + y) (fun j => m (pin + si * (j : Int))) (K + 1) =
      accSpec (fun x y => x + y) (fun j => m (pin + si * (j : Int))) K + m (pin + si * ((K + 1 : Nat) : Int)) := fun _ _ => rfl
  obtain ⟨m, h0, hne⟩ := bad_contents pin si po so n (16384 * (b + 1)) hd (by omega) (by omega)
  obtain ⟨s', hr, hval⟩ := run_inverted pin si po so n hd m l₁ l₂ b hn hlt hb1
  refine ⟨m, s'.mem, h0, by rw [blocksInOrder_eq enabled k hv hk hsz, runMem, hr]; rfl, 16384 * (b + 1) + 1, by omega, ?_⟩
  rw [hval, hstep]
  intro e
  exact hne ((BitVec.add_left_inj _).mp e)

/-- Case of `C10_out_of_order_violated`: the schedule of `C10_threaded_violated`. -/
example := C10_out_of_order_violated true (.symmetric 8) (by simp [Kernel.Valid]) rfl (by intro z h; rcases h with h | h <;> cases h)
  0 8 1000000 8 65536 (fun i j _ _ _ => by omega) 0 1 0 badSched badSched_log.1 _ rfl
  (by rw [badSched_log.2]; simp)

/-- The caller alone runs the blocks in order. -/
theorem goodSched_log : (Work.exec (ufuncItem 65536 0 0 0) (List.replicate 30 0)).pc 0 = .returned ∧
    (Work.kernelCalls (ufuncItem 65536 0 0 0) (Work.exec (ufuncItem 65536 0 0 0) (List.replicate 30 0))).reverse =
      [(0, 16384), (16384, 16384), (32768, 16384), (49152, 16384)] := by
  constructor <;> decide +kernel

/-- Case of `C10_in_order_partial`. -/
example := C10_in_order_partial true (.symmetric 8) (by simp [Kernel.Valid]) rfl (by intro z h; rcases h with h | h <;> cases h)
  (fun x y : Int => x * y) 0 8 1000000 8 65536 (fun _ => 3) rfl (fun i j _ _ _ => by omega) 0 0 0 (List.replicate 30 0) goodSched_log.1 _ rfl
  (by rw [goodSched_log.2]; simp)

end Pnumpy.Props
