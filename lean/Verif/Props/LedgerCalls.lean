import Verif.Spec.LedgerCalls
import Verif.Props.Ledger
import Mathlib.Data.List.Induction
/-
Property theorems C95: hooked calls with the ledger on, from several threads.
-/
namespace Pnumpy.Props
open Pnumpy.LedgerCalls Pnumpy.Spec
open Pnumpy.Work (upd)
open Pnumpy.Ledger (SIZE slotOf MASK)

theorem exec_snoc (l : List Act) (a : Act) : LedgerCalls.exec (l ++ [a]) = LedgerCalls.step (LedgerCalls.exec l) a := by
  simp [LedgerCalls.exec, List.foldl_append]

theorem ledger_slot_lt (t : BitVec 64) : slotOf t < SIZE := by
  have := @Nat.and_le_left (8095#64).toNat t.toNat
  have h : (8095#64).toNat = 8095 := rfl
  simp only [slotOf, MASK, BitVec.toNat_and, SIZE]
  omega

/-- The call a thread still has to carry out. -/
def pending : LedgerCalls.Thread → List Nat
  | .test _ c => [c]
  | .on _ c => [c]
  | .work _ c => [c]
  | _ => []

theorem store_outside (s : LedgerCalls.St) (i : BitVec 64) (k c : Nat) : (store s i k c).outside = s.outside := by
  rw [store, if_pos (ledger_slot_lt i)]

theorem store_rest (s : LedgerCalls.St) (i : BitVec 64) (k c : Nat) :
    (store s i k c).thread = s.thread ∧ (store s i k c).ran = s.ran ∧ (store s i k c).began = s.began ∧ (store s i k c).flag = s.flag ∧
    (store s i k c).tail = s.tail := by
  rw [store, if_pos (ledger_slot_lt i)]; exact ⟨rfl, rfl, rfl, rfl, rfl⟩

theorem ran_inv (l : List Act) (t : Nat) :
    own t (LedgerCalls.exec l).began = own t (LedgerCalls.exec l).ran ++ (pending ((LedgerCalls.exec l).thread t)).map (fun c => (t, c)) := by
  induction l using List.reverseRecOn with
  | nil => rfl
  | append_singleton l a ih =>
    rw [exec_snoc]
    generalize LedgerCalls.exec l = s at ih ⊢
    cases a with
    | set b => exact ih
    | start t' c =>
      simp only [LedgerCalls.step]
      split
      · rename_i hx
        by_cases e : t = t'
        · subst e
          rw [hx] at ih
          simp only [upd, if_true, pending, List.map_cons, List.map_nil, List.append_nil] at ih ⊢
          simp only [own, List.filter_append] at ih ⊢
          rw [ih]; simp
        · simp only [upd, if_neg e]
          simp only [own, List.filter_append] at ih ⊢
          rw [ih]; simp [Ne.symm e]
      · exact ih
    | go t' =>
      by_cases e : t = t'
      · subst e
        simp only [LedgerCalls.step]
        split <;> rename_i hx <;> rw [hx] at ih
        · rw [hx]; exact ih
        · simp only [upd, if_true]; split <;> exact ih
        · simp only [upd, if_true]; exact ih
        · simp only [upd, if_true, pending, List.map_cons, List.map_nil, List.append_nil] at ih ⊢
          rw [ih]; simp [own, List.filter_append]
        · simp only [upd, if_true]; exact ih
        · simp only [upd, if_true]; exact ih
        · simp only [upd, if_true]; exact ih
        · simp only [upd, if_true]; exact ih
        · simp only [upd, if_true]
          rw [(store_rest _ _ _ _).2.1, (store_rest _ _ _ _).2.2.1]
          split <;> exact ih
      · have key : (LedgerCalls.step s (.go t')).thread t = s.thread t ∧ (LedgerCalls.step s (.go t')).began = s.began ∧
            own t (LedgerCalls.step s (.go t')).ran = own t s.ran := by
          simp only [LedgerCalls.step]
          split <;> simp only [upd, if_neg e, (store_rest _ _ _ _).1, (store_rest _ _ _ _).2.1, (store_rest _ _ _ _).2.2.1, and_self]
          simp [own, List.filter_append, Ne.symm e]
        rw [key.1, key.2.1, key.2.2]; exact ih

/-- **C95**, operations: with any number of threads, the ledger on, off or switched at any moment, in every order of steps: when a thread is not in a call, the
operations it asked for have been carried out, each exactly once and in order. -/
theorem C95_once (l : List Act) (t : Nat) (h : (LedgerCalls.exec l).thread t = .idle) :
    own t (LedgerCalls.exec l).ran = own t (LedgerCalls.exec l).began := by
  have := ran_inv l t
  rw [h] at this
  simpa [pending] using this.symm

/-- **C95**, memory: no thread ever stores outside the ring. -/
theorem C95_inside (l : List Act) : (LedgerCalls.exec l).outside = false := by
  induction l using List.reverseRecOn with
  | nil => rfl
  | append_singleton l a ih =>
    rw [exec_snoc]
    generalize LedgerCalls.exec l = s at ih ⊢
    cases a with
    | set b => exact ih
    | start t c => simp only [LedgerCalls.step]; split <;> exact ih
    | go t => simp only [LedgerCalls.step]; split <;> first | exact ih | (rw [store_outside]; exact ih)

/-- Two threads; both have finished their calls. -/
example : own 1 (LedgerCalls.exec ([.set true, .start 1 7, .start 2 8] ++ (List.replicate 40 (.go 1)) ++ (List.replicate 40 (.go 2)) ++ [.start 1 9] ++
    List.replicate 40 (.go 1))).ran = [(1, 7), (1, 9)] := by
  rw [C95_once _ _ (by decide +kernel)]; decide +kernel

/-- Steps thread `t` needs when it runs alone. -/
def left : LedgerCalls.Thread → Bool → Nat
  | .idle, _ => 0
  | .test d _, f => (if f then 2 else 0) + 2 + (10 * d + 1 + if f then 11 else 0)
  | .on d _, _ => 14 + (10 * d + 1)
  | .work d _, _ => 1 + (10 * d + 1)
  | .unwind d _, _ => 10 * d + 1
  | .tail d _, _ => 9 + (10 * d + 1)
  | .inc d _ _, _ => 8 + (10 * d + 1)
  | .fill d _ _ k, _ => (7 - k) + (10 * d + 1)

theorem alone (t : Nat) : ∀ (n : Nat) (s : LedgerCalls.St), left (s.thread t) s.flag ≤ n → (∀ d c i k, s.thread t = .fill d c i k → k < 7) →
    ∃ k, ((List.replicate k (Act.go t)).foldl LedgerCalls.step s).thread t = .idle := by
  intro n
  induction n with
  | zero =>
    intro s h hf
    refine ⟨0, ?_⟩
    cases hx : s.thread t <;> rw [hx] at h <;> simp only [left] at h <;> first | (simpa using hx) | omega
  | succ n ih =>
    intro s h hf
    by_cases hi : s.thread t = .idle
    · exact ⟨0, by simpa using hi⟩
    obtain ⟨k, hk⟩ := ih (LedgerCalls.step s (.go t)) (by
        cases hx : s.thread t with
        | idle => exact absurd hx hi
        | test d c =>
          rw [hx] at h
          simp only [LedgerCalls.step, hx, upd, if_true, left] at h ⊢
          cases hfl : s.flag <;> simp only [hfl, if_true, Bool.false_eq_true, if_false, left] at h ⊢ <;> omega
        | on d c =>
          rw [hx] at h
          simp only [LedgerCalls.step, hx, upd, if_true, left, Bool.false_eq_true, if_false] at h ⊢; omega
        | work d c =>
          rw [hx] at h
          simp only [LedgerCalls.step, hx, upd, if_true, left] at h ⊢; omega
        | unwind d c =>
          rw [hx] at h
          cases d <;> simp only [LedgerCalls.step, hx, upd, if_true, left] at h ⊢ <;> omega
        | tail d c =>
          rw [hx] at h
          simp only [LedgerCalls.step, hx, upd, if_true, left] at h ⊢; omega
        | inc d c i =>
          rw [hx] at h
          simp only [LedgerCalls.step, hx, upd, if_true, left] at h ⊢; omega
        | fill d c i k =>
          rw [hx] at h
          have := hf _ _ _ _ hx
          simp only [LedgerCalls.step, hx, upd, if_true, FIELDS]
          by_cases hk : k + 1 < 7
          · rw [if_pos hk]; simp only [left] at h ⊢; omega
          · rw [if_neg hk]; simp only [left] at h ⊢; omega)
      (by
        intro d c i k hx
        simp only [LedgerCalls.step] at hx
        split at hx <;> rename_i hy <;> try simp only [upd, if_true] at hx
        · rw [hy] at hx; cases hx
        · split at hx <;> cases hx
        · cases hx
        · cases hx
        · cases hx
        · cases hx
        · cases hx
        · cases hx; omega
        · simp only [FIELDS] at hx
          split at hx
          · cases hx; assumption
          · cases hx)
    exact ⟨k + 1, by rw [List.replicate_succ, List.foldl_cons]; exact hk⟩

theorem fill_lt (l : List Act) (t : Nat) : ∀ d c i k, (LedgerCalls.exec l).thread t = .fill d c i k → k < 7 := by
  induction l using List.reverseRecOn with
  | nil => intro d c i k h; cases h
  | append_singleton l a ih =>
    rw [exec_snoc]
    generalize LedgerCalls.exec l = s at ih ⊢
    intro d c i k h
    cases a with
    | set b => exact ih _ _ _ _ h
    | start t' c' =>
      simp only [LedgerCalls.step] at h
      split at h
      · by_cases e : t = t'
        · simp only [upd, if_pos e] at h; cases h
        · simp only [upd, if_neg e] at h; exact ih _ _ _ _ h
      · exact ih _ _ _ _ h
    | go t' =>
      by_cases e : t = t'
      · subst e
        simp only [LedgerCalls.step] at h
        split at h <;> rename_i hy <;> try simp only [upd, if_true] at h
        · exact ih _ _ _ _ h
        · split at h <;> cases h
        · cases h
        · cases h
        · cases h
        · cases h
        · cases h
        · cases h; omega
        · simp only [FIELDS] at h
          split at h
          · cases h; assumption
          · cases h
      · have : (LedgerCalls.step s (.go t')).thread t = s.thread t := by
          simp only [LedgerCalls.step]
          split <;> simp only [upd, if_neg e, (store_rest _ _ _ _).1]
        rw [this] at h; exact ih _ _ _ _ h

/-- **C95**, no waiting: whatever the other threads have done and wherever they stand, a thread that runs on comes to the end of its call. -/
theorem C95_returns (l : List Act) (t : Nat) : ∃ k, (LedgerCalls.exec (l ++ List.replicate k (.go t))).thread t = .idle := by
  obtain ⟨k, hk⟩ := alone t _ _ (Nat.le_refl _) (fill_lt l t)
  exact ⟨k, by rw [LedgerCalls.exec, List.foldl_append]; exact hk⟩

/-- What a call does to the ring when no other call overlaps it, with the ledger on: one entry, in the next slot; the flag stays. -/
theorem C95_alone_on_partial (l : List Act) (t c : Nat) (hidle : (LedgerCalls.exec l).thread t = .idle) (hon : (LedgerCalls.exec l).flag = true) :
    let s := LedgerCalls.exec l
    let s' := LedgerCalls.exec (l ++ .start t c :: List.replicate 15 (.go t))
    s'.thread t = .idle ∧ s'.flag = true ∧ s'.tail = s.tail + 1 ∧ (∀ k, k < 7 → s'.queue (slotOf s.tail) k = some c) ∧
    (∀ i k, i ≠ slotOf s.tail → s'.queue i k = s.queue i k) ∧ s'.ran = s.ran ++ [(t, c)] := by
  intro s s'
  have hs' : s' = (Act.start t c :: List.replicate 15 (.go t)).foldl LedgerCalls.step s := by
    simp only [s', s, LedgerCalls.exec, List.foldl_append]
  rw [hs']
  clear hs'
  change s.thread t = .idle at hidle
  change s.flag = true at hon
  clear_value s
  simp only [List.replicate, List.foldl_cons, List.foldl_nil, LedgerCalls.step, hidle, upd, if_true, hon, store, if_pos (ledger_slot_lt _), FIELDS,
    Bool.false_eq_true, if_false, Nat.reduceAdd, Nat.reduceLT]
  refine ⟨trivial, trivial, trivial, ?_, ?_, trivial⟩
  · intro k hk
    have : k = 0 ∨ k = 1 ∨ k = 2 ∨ k = 3 ∨ k = 4 ∨ k = 5 ∨ k = 6 := by omega
    rcases this with rfl | rfl | rfl | rfl | rfl | rfl | rfl <;> simp
  · intro i k hi
    simp [hi]

example := C95_alone_on_partial [.set true, .start 2 5, .go 2] 1 7 rfl rfl

/-- The same with the ledger off: nothing is recorded and the flag stays. -/
theorem C95_alone_off_partial (l : List Act) (t c : Nat) (hidle : (LedgerCalls.exec l).thread t = .idle) (hoff : (LedgerCalls.exec l).flag = false) :
    let s := LedgerCalls.exec l
    let s' := LedgerCalls.exec (l ++ .start t c :: List.replicate 3 (.go t))
    s'.thread t = .idle ∧ s'.flag = false ∧ s'.tail = s.tail ∧ s'.queue = s.queue ∧ s'.ran = s.ran ++ [(t, c)] := by
  intro s s'
  have hs' : s' = (Act.start t c :: List.replicate 3 (.go t)).foldl LedgerCalls.step s := by
    simp only [s', s, LedgerCalls.exec, List.foldl_append]
  rw [hs']
  clear hs'
  change s.thread t = .idle at hidle
  change s.flag = false at hoff
  clear_value s
  simp only [List.replicate, List.foldl_cons, List.foldl_nil, LedgerCalls.step, hidle, upd, if_true, hoff, Bool.false_eq_true, if_false]
  exact ⟨trivial, trivial, trivial, trivial, trivial⟩

example := C95_alone_off_partial [.set true, .set false] 1 7 rfl rfl

theorem untouched (l : List Act) (t : Nat) (h : ∀ a ∈ l, a ≠ .go t ∧ ∀ c, a ≠ .start t c) : (LedgerCalls.exec l).thread t = .idle := by
  induction l using List.reverseRecOn with
  | nil => rfl
  | append_singleton l a ih =>
    have ih := ih fun a ha => h a (by simp [ha])
    obtain ⟨h1, h2⟩ := h a (by simp)
    rw [exec_snoc]
    cases a with
    | set b => exact ih
    | start t' c =>
      have e : t ≠ t' := fun e => h2 c (by rw [e])
      simp only [LedgerCalls.step]
      split
      · simp only [upd, if_neg e]; exact ih
      · exact ih
    | go t' =>
      have e : t ≠ t' := fun e => h1 (by rw [e])
      rw [← ih]
      simp only [LedgerCalls.step]
      split <;> simp only [upd, if_neg e, (store_rest _ _ _ _).1]

/-- **C95 is violated**: `ledger_disable` called while another thread is in a recorded call is undone when that call ends: everybody is outside all calls, the last
thing any user asked for is "off", and the ledger is on. -/
theorem C95_disable_undone_violated :
    let s := LedgerCalls.exec ([.set true, .start 1 7, .go 1, .go 1, .set false] ++ List.replicate 13 (.go 1))
    (∀ t, s.thread t = .idle) ∧ s.flag = true := by
  refine ⟨fun t => ?_, by decide⟩
  by_cases h : t = 1
  · subst h; decide
  · refine untouched _ t fun a ha => ?_
    simp only [List.replicate, List.cons_append, List.nil_append, List.mem_cons, List.not_mem_nil, or_false] at ha
    constructor
    · intro e; subst e; simp at ha; exact h ha
    · intro c e; subst e; simp at ha; exact h ha.1

/-- **C95 is violated**: the ledger was switched on before both calls and never off, both calls are over, one of them is not in the ledger. -/
theorem C95_missed_violated :
    let s := LedgerCalls.exec ([.set true, .start 1 7, .go 1, .go 1, .start 2 8, .go 2, .go 2, .go 2] ++ List.replicate 13 (.go 1))
    s.thread 1 = .idle ∧ s.thread 2 = .idle ∧ s.ran = [(2, 8), (1, 7)] ∧ ∀ i k, s.queue i k ≠ some 8 := by
  refine ⟨by decide, by decide, by decide, fun i k h => ?_⟩
  simp only [LedgerCalls.exec, LedgerCalls.init, List.replicate, List.cons_append, List.nil_append, List.foldl_cons, List.foldl_nil, LedgerCalls.step, upd,
    if_true, store, if_pos (ledger_slot_lt _), FIELDS, Bool.false_eq_true, if_false, Nat.reduceAdd, Nat.reduceLT, Nat.reduceEqDiff] at h
  revert h
  repeat' split
  all_goals simp

/-- **C95 is violated**: two calls that end at the same time are written into the same slot, and the entry is of neither call. -/
theorem C95_mixed_violated :
    let s := LedgerCalls.exec ([.set true, .start 1 7, .start 2 8] ++ (List.replicate 7 [.go 1, .go 2]).flatten ++
      [.go 2] ++ List.replicate 8 (.go 1) ++ List.replicate 7 (.go 2))
    s.thread 1 = .idle ∧ s.thread 2 = .idle ∧ s.queue 0 0 = some 7 ∧ s.queue 0 1 = some 8 ∧ s.queue 1 0 = none := by
  decide

/-- Thread 1 makes one recorded call while thread 2 is about to read the flag. -/
def lap : List Act := [.go 2, .start 1 7, .go 1, .go 2] ++ List.replicate 14 (.go 1)

theorem lap_step (s : LedgerCalls.St) (d : Nat) (h1 : s.thread 1 = .idle) (h2 : s.thread 2 = .test d 8) (hf : s.flag = true) :
    (lap.foldl LedgerCalls.step s).thread 1 = .idle ∧ (lap.foldl LedgerCalls.step s).thread 2 = .test (d + 1) 8 ∧ (lap.foldl LedgerCalls.step s).flag = true := by
  simp only [lap, List.replicate, List.cons_append, List.nil_append, List.foldl_cons, List.foldl_nil, LedgerCalls.step, h1, h2, hf, upd, if_true, store,
    if_pos (ledger_slot_lt _), FIELDS, Bool.false_eq_true, if_false, Nat.reduceAdd, Nat.reduceLT, Nat.reduceEqDiff]
  exact ⟨trivial, trivial, trivial⟩

/-- **C95 is violated**: after one `ledger_enable`, with two threads that only make ordinary calls, one single call nests in itself (and so uses stack and will be
recorded) more often than any given number. -/
theorem C95_nesting_violated (N : Nat) :
    let s := LedgerCalls.exec ([.set true, .start 2 8] ++ (List.replicate N lap).flatten)
    depth (s.thread 2) = N ∧ own 2 s.began = [(2, 8)] := by
  have key : ∀ N, let s := LedgerCalls.exec ([.set true, .start 2 8] ++ (List.replicate N lap).flatten)
      s.thread 1 = .idle ∧ s.thread 2 = .test N 8 ∧ s.flag = true := by
    intro N
    induction N with
    | zero => exact ⟨rfl, rfl, rfl⟩
    | succ N ih =>
      obtain ⟨a, b, c⟩ := ih
      have e : LedgerCalls.exec ([.set true, .start 2 8] ++ (List.replicate (N + 1) lap).flatten) =
          lap.foldl LedgerCalls.step (LedgerCalls.exec ([.set true, .start 2 8] ++ (List.replicate N lap).flatten)) := by
        rw [List.replicate_succ', List.flatten_append, ← List.append_assoc, LedgerCalls.exec, List.foldl_append]
        simp [LedgerCalls.exec]
      intro s
      have hs : s = _ := e
      rw [hs]
      exact lap_step _ N a b c
  obtain ⟨_, b, _⟩ := key N
  refine ⟨by rw [b]; rfl, ?_⟩
  have hb : ∀ (l : List Act) (s : LedgerCalls.St), (∀ a ∈ l, ∀ c, a ≠ .start 2 c) → own 2 (l.foldl LedgerCalls.step s).began = own 2 s.began := by
    intro l
    induction l with
    | nil => intro s _; rfl
    | cons a l ih =>
      intro s h
      rw [List.foldl_cons, ih _ fun a ha => h a (by simp [ha])]
      cases a with
      | set b => rfl
      | start t c =>
        have : t ≠ 2 := fun e => h (.start t c) (by simp) c (by rw [e])
        simp only [LedgerCalls.step]
        split
        · simp [own, List.filter_append, this]
        · rfl
      | go t =>
        simp only [LedgerCalls.step]
        split <;> simp only [(store_rest _ _ _ _).2.2.1]
  rw [LedgerCalls.exec, List.foldl_append, hb]
  · rfl
  · intro a ha c e
    subst e
    obtain ⟨l, h1, h2⟩ := List.mem_flatten.1 ha
    rw [List.eq_of_mem_replicate h1] at h2
    simp [lap, List.mem_replicate] at h2

/-- **C95**, names: the ledger prints every hooked element-wise operation with a name numpy knows the function by (in particular the table is never read
outside its bounds nor NULL printed). -/
theorem C95_op_names : ∀ e ∈ Hooks.binaryMapping ++ Hooks.compareMapping ++ Hooks.unaryMapping ++ Hooks.trigMapping,
    ∃ cat name, catOf e.tbl = some cat ∧ opName cat (opCode e.op) = some (some name) ∧ npFunc name = some e.obj := by
  have h : ∀ e ∈ Hooks.binaryMapping ++ Hooks.compareMapping ++ Hooks.unaryMapping ++ Hooks.trigMapping,
      ((catOf e.tbl).bind fun cat => (opName cat (opCode e.op)).bind fun n => n.bind npFunc) = some e.obj := by decide +kernel
  intro e he
  have := h e he
  obtain ⟨cat, h1, h2⟩ := Option.bind_eq_some_iff.1 this
  obtain ⟨n, h3, h4⟩ := Option.bind_eq_some_iff.1 h2
  obtain ⟨name, h5, h6⟩ := Option.bind_eq_some_iff.1 h4
  exact ⟨cat, name, h1, by rw [h3, h5], h6⟩

/-- **C95**, names: the ledger prints every hooked element type under numpy's name. -/
theorem C95_type_names : ∀ d ∈ Hooks.dtypes, ∃ t, npyType d = some t ∧ 0 ≤ Hooks.atype d ∧ typeNames[(Hooks.atype d).toNat]? = npTypeName t ∧ npTypeName t ≠ none := by
  have h : ∀ d ∈ Hooks.dtypes, decide (0 ≤ Hooks.atype d) && ((npyType d).bind npTypeName == typeNames[(Hooks.atype d).toNat]?) && ((npyType d).bind npTypeName).isSome := by
    decide +kernel
  intro d hd
  have := h d hd
  simp only [Bool.and_eq_true, decide_eq_true_eq, beq_iff_eq] at this
  obtain ⟨⟨h1, h2⟩, h3⟩ := this
  cases hn : npyType d with
  | none => rw [hn] at h3; simp at h3
  | some t =>
    rw [hn] at h2 h3
    exact ⟨t, rfl, h1, h2.symm, by intro e; rw [Option.bind_some, e] at h3; simp at h3⟩

/-- **C95 is violated**: numpy hands an element-wise loop one dimension (functions without core dimensions); the ledger also reads a second one. -/
theorem C95_second_dimension_violated (n : Int) : lengths [n] = none := rfl

end Pnumpy.Props
