import Verif.Model.Hooks
import Verif.Spec.Dtypes
import Mathlib.Tactic.Tauto
/-
Invariant of hook installation.
-/
namespace Pnumpy.Hooks
open Pnumpy.Spec (sameType Call)

/-- Objects hooked twice: the second operation code. -/
def rank (k : Key) : Nat := if k.op = .BITWISE_NOT ∨ k.op = .RINT then 1 else 0

def entries : List Entry := binaryMapping ++ compareMapping ++ unaryMapping ++ trigMapping ++ otherMapping

theorem entries_inj : ∀ e ∈ entries, ∀ e' ∈ entries, e.tbl = e'.tbl → e.op = e'.op → e.obj = e'.obj := by decide +kernel

/-- Two replacements of the same loop use operation codes of increasing rank. -/
def Before (h h' : Hook) : Prop := h.1.obj = h'.1.obj → h.2 = h'.2 → rank h.key < rank h'.key

instance (h h' : Hook) : Decidable (Before h h') := by unfold Before; infer_instance

def EBefore (e e' : Entry) : Prop := e.obj = e'.obj → ∀ a, rank ⟨e.tbl, e.op, a⟩ < rank ⟨e'.tbl, e'.op, a⟩

def EBeforeB (e e' : Entry) : Bool := decide (e.obj = e'.obj → (¬ (e.op = .BITWISE_NOT ∨ e.op = .RINT)) ∧ (e'.op = .BITWISE_NOT ∨ e'.op = .RINT))

theorem ebefore_of (e e' : Entry) (h : EBeforeB e e' = true) : EBefore e e' := by
  intro ho a
  have h := of_decide_eq_true h ho
  simp only [rank, if_neg h.1, if_pos h.2]; decide

theorem entries_before : entries.Pairwise (fun e e' => EBeforeB e e' = true) := by decide +kernel

theorem before_of_e {e e' : Entry} (h : EBefore e e') (d d' : Nat) : Before (e, d) (e', d') := by
  intro ho hd
  show rank ⟨e.tbl, e.op, atype d⟩ < rank ⟨e'.tbl, e'.op, atype d'⟩
  have hd : d = d' := hd
  subst hd
  exact h ho _

theorem ne_of_d {e e' : Entry} {d d' : Nat} (h : d ≠ d') : Before (e, d) (e', d') := fun _ hd => absurd hd h

theorem dtypes_nodup : dtypes.Pairwise (· ≠ ·) := by decide
theorem trigDtypes_nodup : trigDtypes.Pairwise (· ≠ ·) := by decide

theorem allHooks_mem (h : Hook) (hh : h ∈ allHooks) : h.1 ∈ entries ∧ h.2 ∈ dtypes := by
  obtain ⟨e, d⟩ := h
  simp only [allHooks, List.mem_append, List.mem_flatMap, List.mem_map, Prod.mk.injEq] at hh
  rcases hh with (⟨e', he', d', hd', rfl, rfl⟩ | ⟨e', he', d', hd', rfl, rfl⟩) | ⟨d', hd', e', he', rfl, rfl⟩
  · exact ⟨by simp only [entries, List.mem_append]; tauto, hd'⟩
  · refine ⟨by simp only [entries, List.mem_append]; tauto, ?_⟩
    revert hd'; unfold trigDtypes dtypes; simp; omega
  · exact ⟨by simp only [entries, List.mem_append]; tauto, hd'⟩

theorem allHooks_before : allHooks.Pairwise Before := by
  have hE := entries_before
  unfold entries at hE
  rw [List.pairwise_append, List.pairwise_append] at hE
  obtain ⟨⟨h1, h2, h12⟩, h3, h123⟩ := hE
  unfold allHooks
  rw [List.pairwise_append, List.pairwise_append]
  refine ⟨⟨?_, ?_, ?_⟩, ?_, ?_⟩
  · rw [List.pairwise_flatMap]
    refine ⟨fun e _ => ?_, ?_⟩
    · rw [List.pairwise_map]; exact dtypes_nodup.imp fun h => ne_of_d h
    · refine h1.imp fun hb => ?_
      intro x hx y hy
      obtain ⟨d, _, rfl⟩ := List.mem_map.1 hx
      obtain ⟨d', _, rfl⟩ := List.mem_map.1 hy
      exact before_of_e (ebefore_of _ _ hb) d d'
  · rw [List.pairwise_flatMap]
    refine ⟨fun e _ => ?_, ?_⟩
    · rw [List.pairwise_map]; exact trigDtypes_nodup.imp fun h => ne_of_d h
    · refine h2.imp fun hb => ?_
      intro x hx y hy
      obtain ⟨d, _, rfl⟩ := List.mem_map.1 hx
      obtain ⟨d', _, rfl⟩ := List.mem_map.1 hy
      exact before_of_e (ebefore_of _ _ hb) d d'
  · intro x hx y hy
    obtain ⟨e, he, hx⟩ := List.mem_flatMap.1 hx
    obtain ⟨d, _, rfl⟩ := List.mem_map.1 hx
    obtain ⟨e', he', hy⟩ := List.mem_flatMap.1 hy
    obtain ⟨d', _, rfl⟩ := List.mem_map.1 hy
    exact before_of_e (ebefore_of _ _ (h12 e he e' he')) d d'
  · rw [List.pairwise_flatMap]
    refine ⟨fun d _ => ?_, ?_⟩
    · rw [List.pairwise_map]; exact h3.imp fun hb => before_of_e (ebefore_of _ _ hb) d d
    · refine dtypes_nodup.imp fun hb => ?_
      intro x hx y hy
      obtain ⟨e, _, rfl⟩ := List.mem_map.1 hx
      obtain ⟨e', _, rfl⟩ := List.mem_map.1 hy
      exact ne_of_d hb
  · intro x hx y hy
    obtain ⟨d', _, hy⟩ := List.mem_flatMap.1 hy
    obtain ⟨e', he', rfl⟩ := List.mem_map.1 hy
    rcases List.mem_append.1 hx with hx | hx
    · obtain ⟨e, he, hx⟩ := List.mem_flatMap.1 hx
      obtain ⟨d, _, rfl⟩ := List.mem_map.1 hx
      exact before_of_e (ebefore_of _ _ (h123 e (List.mem_append_left _ he) e' he')) d d'
    · obtain ⟨e, he, hx⟩ := List.mem_flatMap.1 hx
      obtain ⟨d, _, rfl⟩ := List.mem_map.1 hx
      exact before_of_e (ebefore_of _ _ (h123 e (List.mem_append_right _ he) e' he')) d d'

theorem hooks_sublist (c : Cfg) : c.hooks.Sublist allHooks := by
  unfold Cfg.hooks
  cases c.stop with
  | none => exact List.filter_sublist
  | some n => exact (List.take_sublist _ _).trans List.filter_sublist

/-- The last replacement of the loop of `o`, `d` in `L` (processed left to right). -/
def lastHook (L : List Hook) (o : Obj) (d : Nat) : Option Hook := L.reverse.find? fun h => decide (h.1.obj = o ∧ h.2 = d)

theorem lastHook_append (L : List Hook) (h : Hook) (o : Obj) (d : Nat) :
    lastHook (L ++ [h]) o d = if h.1.obj = o ∧ h.2 = d then some h else lastHook L o d := by
  unfold lastHook
  rw [List.reverse_append]
  simp only [List.reverse_cons, List.reverse_nil, List.nil_append, List.cons_append, List.find?_cons]
  by_cases hh : h.1.obj = o ∧ h.2 = d
  · simp [hh]
  · rw [if_neg hh]; simp only [hh, decide_false]

structure Inv (L : List Hook) (s : St) : Prop where
  loops : ∀ o d, s.loops o d = match lastHook L o d with
    | some h => .stub h.key
    | none => .numpy o d
  filled : ∀ h ∈ L, s.old h.key ≠ none
  old : ∀ k l, s.old k = some l → ∃ h ∈ L, h.key = k ∧
    (l = .numpy h.1.obj h.2 ∨ ∃ h' ∈ L, h'.1.obj = h.1.obj ∧ h'.2 = h.2 ∧ l = .stub h'.key ∧ rank h'.key < rank k)

theorem lastHook_some {L : List Hook} {o : Obj} {d : Nat} {h : Hook} (hh : lastHook L o d = some h) : h ∈ L ∧ h.1.obj = o ∧ h.2 = d := by
  unfold lastHook at hh
  have h1 := List.find?_some hh
  have h2 := List.mem_of_find?_eq_some hh
  exact ⟨by simpa using h2, by simpa using h1⟩

theorem inv_step (L : List Hook) (h : Hook) (s : St) (hp : (L ++ [h]).Pairwise Before) (hi : Inv L s) : Inv (L ++ [h]) (hookOne s h) := by
  have hb : ∀ h' ∈ L, Before h' h := fun h' hm => (List.pairwise_append.1 hp).2.2 h' hm h (by simp)
  unfold hookOne
  split
  · rename_i hg
    -- the guard can only fire if the loop was already replaced by the same key: excluded by `Before`
    exfalso
    have hl := hi.loops h.1.obj h.2
    rw [hg.2] at hl
    split at hl
    · rename_i h' hl'
      obtain ⟨hm, ho, hd⟩ := lastHook_some hl'
      have := hb h' hm ho hd
      injection hl with hl
      rw [hl] at this
      exact Nat.lt_irrefl _ this
    · cases hl
  · refine ⟨?_, ?_, ?_⟩
    · intro o d
      rw [lastHook_append]
      show (if o = h.1.obj ∧ d = h.2 then Loop.stub h.key else s.loops o d) = _
      by_cases hh : h.1.obj = o ∧ h.2 = d
      · rw [if_pos hh, if_pos ⟨hh.1.symm, hh.2.symm⟩]
      · rw [if_neg hh, if_neg (fun x => hh ⟨x.1.symm, x.2.symm⟩)]; exact hi.loops o d
    · intro h' hm
      show (if h'.key = h.key then some (s.loops h.1.obj h.2) else s.old h'.key) ≠ none
      split
      · simp
      · rcases List.mem_append.1 hm with hm | hm
        · exact hi.filled h' hm
        · simp at hm; subst hm; rename_i hne; exact absurd rfl hne
    · intro k l hk
      have hk : (if k = h.key then some (s.loops h.1.obj h.2) else s.old k) = some l := hk
      split at hk
      · rename_i e
        injection hk with hk
        refine ⟨h, by simp, e.symm, ?_⟩
        rw [hi.loops] at hk
        split at hk
        · rename_i h' hl'
          obtain ⟨hm, ho, hd⟩ := lastHook_some hl'
          right
          exact ⟨h', by simp [hm], ho, hd, hk.symm, by rw [e]; exact hb h' hm ho hd⟩
        · exact Or.inl hk.symm
      · obtain ⟨h1, hm, hkey, hor⟩ := hi.old k l hk
        refine ⟨h1, by simp [hm], hkey, ?_⟩
        rcases hor with hor | ⟨h', hm', a, b, c, d⟩
        · exact Or.inl hor
        · exact Or.inr ⟨h', by simp [hm'], a, b, c, d⟩

theorem inv_fold (L M : List Hook) (s : St) (hp : (L ++ M).Pairwise Before) (hi : Inv L s) : Inv (L ++ M) (M.foldl hookOne s) := by
  induction M generalizing L s with
  | nil => simpa using hi
  | cons h t ih =>
    have e : L ++ h :: t = (L ++ [h]) ++ t := by simp
    rw [e] at hp ⊢
    exact ih (L ++ [h]) (hookOne s h) hp (inv_step L h s (List.pairwise_append.1 hp).1 hi)

theorem fold_keeps (M : List Hook) (s : St) : (M.foldl hookOne s).atop = s.atop ∧ (M.foldl hookOne s).noThreading = s.noThreading ∧
    (M.foldl hookOne s).initialized = s.initialized ∧ (M.foldl hookOne s).subHooked = s.subHooked ∧ (M.foldl hookOne s).subSaved = s.subSaved := by
  induction M generalizing s with
  | nil => simp
  | cons h t ih =>
    have := ih (hookOne s h)
    have e : (hookOne s h).atop = s.atop ∧ (hookOne s h).noThreading = s.noThreading ∧ (hookOne s h).initialized = s.initialized ∧
        (hookOne s h).subHooked = s.subHooked ∧ (hookOne s h).subSaved = s.subSaved := by
      unfold hookOne; split <;> simp
    simp only [List.foldl_cons]
    rw [this.1, this.2.1, this.2.2.1, this.2.2.2.1, this.2.2.2.2]
    exact e

theorem inv_other (L : List Hook) (s s' : St) (h1 : s'.loops = s.loops) (h2 : s'.old = s.old) (hi : Inv L s) : Inv L s' :=
  ⟨by rw [h1]; exact hi.loops, by rw [h2]; exact hi.filled, by rw [h2]; exact hi.old⟩

/-- After any history: either nothing is installed, or exactly the hooks of `c`. -/
theorem run_inv (c : Cfg) (hist : List Call) :
    Inv (if Call.doInit ∈ hist ∧ c.avx2 = true then c.hooks else []) (run c hist) ∧
      ((run c hist).initialized = decide (Call.doInit ∈ hist ∧ c.avx2 = true)) := by
  induction hist with
  | nil =>
    refine ⟨?_, by simp [run, init]⟩
    simp only [List.not_mem_nil, false_and, if_false, run]
    refine ⟨fun o d => by simp [init, lastHook], by simp, fun k l hk => by simp [init] at hk⟩
  | cons x t ih =>
    cases x
    case doInit =>
      simp only [List.mem_cons, true_or, true_and, run, step]
      by_cases hc : (run c t).initialized = false ∧ c.avx2 = true
      · rw [if_pos hc]
        have hni : ¬ (Call.doInit ∈ t ∧ c.avx2 = true) := by
          intro hh; have := ih.2; rw [hc.1] at this; simp [hh] at this
        have hi := ih.1
        rw [if_neg hni] at hi
        rw [if_pos hc.2]
        refine ⟨?_, ?_⟩
        · have hp : ([] ++ c.hooks).Pairwise Before := by
            simpa using List.Pairwise.sublist (hooks_sublist c) allHooks_before
          have hi0 : Inv [] { run c t with initialized := true, old := fun _ => none } :=
            ⟨hi.loops, by simp, fun k l hk => by simp at hk⟩
          simpa using inv_fold [] c.hooks _ hp hi0
        · rw [(fold_keeps _ _).2.2.1]; simp [hc.2]
      · rw [if_neg hc]
        by_cases ha : c.avx2 = true
        · have hin : (run c t).initialized = true := by
            cases hh : (run c t).initialized
            · exact absurd ⟨hh, ha⟩ hc
            · rfl
          have h2 := ih.2
          rw [hin] at h2
          have h2 := of_decide_eq_true h2.symm
          rw [if_pos ha]
          have := ih.1
          rw [if_pos h2] at this
          exact ⟨this, by simp [hin, ha]⟩
        · have := ih.1
          rw [if_neg (fun hh => ha hh.2)] at this
          rw [if_neg ha]
          refine ⟨this, ?_⟩
          have h2 := ih.2
          rw [h2]; simp [ha]
    all_goals
      simp only [List.mem_cons, reduceCtorEq, false_or, run, step]
      generalize (if Call.doInit ∈ t ∧ c.avx2 = true then c.hooks else []) = L at ih ⊢
      (try split) <;> exact ⟨inv_other _ (run c t) _ rfl rfl ih.1, ih.2⟩

theorem atype_same (d d' : Nat) (h : d ∈ dtypes) (h' : d' ∈ dtypes) (he : atype d = atype d') : sameType d d' := by
  have key : ∀ d ∈ dtypes, ∀ d' ∈ dtypes, atype d = atype d' → Spec.npyType d = Spec.npyType d' ∧ (Spec.npyType d).isSome := by decide +kernel
  obtain ⟨h1, h2⟩ := key d h d' h' he
  obtain ⟨t, ht⟩ := Option.isSome_iff_exists.1 h2
  exact ⟨t, ht, by rw [← h1, ht]⟩

/-- From a table position that was filled, a disabled call ends in numpy's loop of the same object. -/
theorem resolves (c : Cfg) (s : St) (L : List Hook) (hL : L.Sublist allHooks) (hi : Inv L s) (ha : s.atop = false) :
    ∀ n, ∀ h ∈ L, rank h.key = n → ∃ d', d' ∈ dtypes ∧ atype d' = atype h.2 ∧ Runs c s (.stub h.key) (.numpy h.1.obj d') := by
  intro n
  induction n using Nat.strongRecOn with
  | ind n ih =>
    intro h hm hr
    obtain ⟨l, hl⟩ := Option.ne_none_iff_exists'.1 (hi.filled h hm)
    obtain ⟨h1, hm1, hk1, hor⟩ := hi.old _ _ hl
    have hmem := allHooks_mem h (hL.subset hm)
    have hmem1 := allHooks_mem h1 (hL.subset hm1)
    have htbl : h1.1.tbl = h.1.tbl := congrArg Key.tbl hk1
    have hop : h1.1.op = h.1.op := congrArg Key.op hk1
    have hat : atype h1.2 = atype h.2 := congrArg Key.atype hk1
    have hobj : h1.1.obj = h.1.obj := entries_inj _ hmem1.1 _ hmem.1 htbl hop
    have hna : ¬ (s.atop = true ∧ c.kernel h.key = true) := by simp [ha]
    rcases hor with rfl | ⟨h2, hm2, ho2, hd2, rfl, hr2⟩
    · refine ⟨h1.2, hmem1.2, hat, ?_⟩
      rw [hobj] at hl
      exact Runs.punt _ _ _ hna hl (Runs.numpy _ _)
    · obtain ⟨d', hd', ha', hruns⟩ := ih (rank h2.key) (by rw [← hr]; exact hr2) h2 hm2 rfl
      refine ⟨d', hd', by rw [ha', hd2, hat], ?_⟩
      rw [ho2, hobj] at hruns
      exact Runs.punt _ _ _ hna hl hruns

theorem runs_unique (c : Cfg) (s : St) (l : Loop) (r r' : Ran) (h : Runs c s l r) (h' : Runs c s l r') : r = r' := by
  induction h with
  | numpy o d => cases h'; rfl
  | addT => cases h'; rfl
  | kernel k hk => cases h' with
    | kernel _ _ => rfl
    | punt _ _ _ hn _ _ => exact absurd hk hn
  | punt k l r hn hold hr ih => cases h' with
    | kernel _ hk => exact absurd hk hn
    | punt _ l' _ _ hold' hr' =>
      rw [hold] at hold'
      injection hold' with e
      subst e
      exact ih hr'

end Pnumpy.Hooks
