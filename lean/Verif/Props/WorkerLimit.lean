import Verif.Proofs.WorkerLimit
import Verif.Props.Dispatch
/-
C99: `atop_setworkers(name, dtype, k)` limits the threads of calls of that numpy function on that type.
-/
namespace Pnumpy.Props
open Pnumpy.Spec Pnumpy.Hooks Pnumpy.WorkerLimit

/-- `c` with AVX2, every line of the mappings selected, nothing failing. -/
def allCfg : Cfg := { avx2 := true, sel := fun _ => true, stop := none, kernel := fun _ => true }

theorem allCfg_std : Std allCfg := ⟨fun _ _ _ _ => rfl, rfl⟩

/-- **C99**: after every history of calls that contains the initialisation, for every function name and dtype number pnumpy took over,
`atop_info(name, dtype)["MaxThreads"]` is the value of the last accepted `atop_setworkers` for that name and element type (the default if there was none). -/
theorem C99_info (c : Cfg) (hc : Std c) (hist : List LCall) (n : String) (d : Nat) (hr : Replaced c n d) (hi : LCall.call .doInit ∈ hist) :
    info (WorkerLimit.run c hist) n d = some (lastLimit c (dfltLimit n) n d hist) := by
  obtain ⟨ha, x, hx, hxn, hxd⟩ := hr
  obtain ⟨h, hh⟩ := lastOf_exists hx (named_iff.2 ⟨hxn, hxd⟩)
  unfold info
  rw [run_dict, if_pos ⟨hi, ha⟩, hh]
  simp only [Option.map_some]
  rw [WorkerLimit.run_max c hc n d h hh hist ⟨hi, ha⟩]

theorem replaced_add : Replaced allCfg "add" 5 := ⟨rfl, (⟨.binary, .add, .ADD⟩, 5), by decide +kernel, by decide +kernel, rfl⟩

/-- Case: `add` for int32 after setting 5 (and trying 99, and setting `multiply` to 9). -/
example : info (WorkerLimit.run allCfg [.setWorkers "multiply" 5 9, .setWorkers "add" 5 99, .setWorkers "add" 5 5, .call .doInit]) "add" 5 = some 5 := by
  rw [C99_info allCfg allCfg_std _ _ _ replaced_add (by simp)]
  simp only [lastLimit]
  rw [if_neg (fun h => absurd h.1 (by decide)), if_neg (fun h => absurd h.2.2.2.2.2.2 (by decide)),
    if_pos ⟨rfl, ⟨_, rfl, rfl⟩, replaced_add, by simp, rfl, by decide, by decide⟩]

/-- **C99**: `atop_setworkers` returns the limit that was in force, and False, changing no limit, if pnumpy is disabled, the loop was not taken over or the number is
not in 0..63. -/
theorem C99_returns (c : Cfg) (hc : Std c) (hist : List LCall) (n : String) (d : Nat) (k : Int) :
    (Replaced c n d ∧ LCall.call .doInit ∈ hist ∧ lEnabled hist = true ∧ 0 ≤ k ∧ k < 64 →
      (WorkerLimit.step c (WorkerLimit.run c hist) (.setWorkers n d k)).2 = .int (lastLimit c (dfltLimit n) n d hist)) ∧
    (¬ (Replaced c n d ∧ LCall.call .doInit ∈ hist ∧ lEnabled hist = true ∧ 0 ≤ k ∧ k < 64) →
      WorkerLimit.step c (WorkerLimit.run c hist) (.setWorkers n d k) = (WorkerLimit.run c hist, .bool false)) := by
  have hat := run_atop c hist
  have hd := run_dict c hist n d
  refine ⟨?_, ?_⟩
  · rintro ⟨hr, hi, ha, hk⟩
    have hinfo := C99_info c hc hist n d hr hi
    unfold info at hinfo
    simp only [WorkerLimit.step]
    rw [if_pos (hat.trans ha)]
    cases hx : (WorkerLimit.run c hist).dict n d with
    | none => rw [hx] at hinfo; cases hinfo
    | some key =>
      rw [hx] at hinfo
      simp only [Option.map_some, Option.some.injEq] at hinfo
      simp only [if_pos hk, hinfo]
  · intro hn
    simp only [WorkerLimit.step]
    by_cases ha : (WorkerLimit.run c hist).hooks.atop = true
    · rw [if_pos ha]
      cases hx : (WorkerLimit.run c hist).dict n d with
      | none => rfl
      | some key =>
        simp only
        rw [if_neg]
        intro hk
        rw [hx] at hd
        by_cases hi : inited c hist
        · rw [if_pos hi] at hd
          cases hl : lastOf (named n d) c.hooks with
          | none => rw [hl] at hd; cases hd
          | some h =>
            obtain ⟨hm, hp⟩ := lastOf_some hl
            exact hn ⟨⟨hi.2, h, hm, (named_iff.1 hp).1, (named_iff.1 hp).2⟩, hi.1, hat.symm.trans ha, hk⟩
        · rw [if_neg hi] at hd; cases hd
    · rw [if_neg ha]

/-- Case: the second `atop_setworkers("add", 5, …)` returns the first one's value; one with 64 is refused. -/
example : (WorkerLimit.step allCfg (WorkerLimit.run allCfg [.setWorkers "add" 5 5, .call .doInit]) (.setWorkers "add" 5 0)).2 = .int 5 ∧
    (WorkerLimit.step allCfg (WorkerLimit.run allCfg [.setWorkers "add" 5 5, .call .doInit]) (.setWorkers "add" 5 64)).2 = .bool false := by
  refine ⟨?_, ?_⟩
  · rw [(C99_returns allCfg allCfg_std _ _ _ _).1 ⟨replaced_add, by simp, rfl, by decide, by decide⟩]
    simp only [lastLimit]
    rw [if_pos ⟨rfl, ⟨_, rfl, rfl⟩, replaced_add, by simp, rfl, by decide, by decide⟩]
  · rw [(C99_returns allCfg allCfg_std _ _ _ _).2 (fun h => absurd h.2.2.2.2 (by decide))]

/-- **C99**: the limit a call of the numpy function `name` on elements of dtype `d` passes on is the one `atop_setworkers(name, …)` set last for that
element type: for every name but `invert`. -/
theorem C99_limit_partial (c : Cfg) (hc : Std c) (hist : List LCall) (n : String) (hn : n ≠ "invert") (o : Obj) (ho : npFunc n = some o) (d : Nat)
    (hr : Replaced c n d) (hi : LCall.call .doInit ∈ hist) :
    limit (WorkerLimit.run c hist) o d = some (lastLimit c (dfltLimit n) n d hist) := by
  obtain ⟨ha, x, hx, hxn, hxd⟩ := hr
  obtain ⟨h, hh⟩ := lastOf_exists hx (named_iff.2 ⟨hxn, hxd⟩)
  unfold limit
  rw [run_loops c hist ⟨hi, ha⟩, dict_is_loop c hh hn o ho]
  simp only
  rw [WorkerLimit.run_max c hc n d h hh hist ⟨hi, ha⟩]

/-- Case: `np.add` on int32 after `atop_setworkers("add", 5, 2)`. -/
example : limit (WorkerLimit.run allCfg [.setWorkers "add" 5 2, .call .doInit]) .add 5 = some 2 := by
  rw [C99_limit_partial allCfg allCfg_std _ "add" (by decide) .add rfl 5 replaced_add (by simp)]
  simp only [lastLimit]
  rw [if_pos ⟨rfl, ⟨_, rfl, rfl⟩, replaced_add, by simp, rfl, by decide, by decide⟩]

/-- **C99**: so, once `atop_setworkers(name, d', k)` with k > 0 was accepted for the element type of `d` and no later call for that name and element type was
accepted, no worker thread with a number above k takes part in an element-wise call of that function on elements of dtype `d`: for every history, every
number of elements, every setting of `thread_setworkers` and zigzag, and every schedule. -/
theorem C99_threads_partial (c : Cfg) (hc : Std c) (after before : List LCall) (n : String) (hn : n ≠ "invert") (o : Obj) (ho : npFunc n = some o) (d d' : Nat)
    (k : Int) (hr : Replaced c n d) (hr' : Replaced c n d') (hs : sameType d' d) (hi : LCall.call .doInit ∈ before) (hen : lEnabled before = true)
    (hk : 0 < k ∧ k < 64) (hafter : ∀ n' e j, LCall.setWorkers n' e j ∈ after → n' = n → ¬ sameType e d) (len maxWakeup zz : Nat) (req : Int)
    (hreq : limit (WorkerLimit.run c (after ++ .setWorkers n d' k :: before)) o d = some req) (sched : List Nat) (w : Nat) (hw : k < w) :
    (Work.exec (ufuncItem len req maxWakeup zz) sched).pc w = .idle := by
  rw [C99_limit_partial c hc _ n hn o ho d hr (by simp [hi])] at hreq
  have hl : lastLimit c (dfltLimit n) n d (after ++ .setWorkers n d' k :: before) = k := by
    induction after with
    | nil =>
      simp only [List.nil_append, lastLimit]
      rw [if_pos ⟨rfl, hs, hr', hi, hen, by omega, hk.2⟩]
    | cons x t ih =>
      have ih := ih (fun n' e j hm => hafter n' e j (List.mem_cons_of_mem _ hm)) (by
        rw [← hreq]
        cases x with
        | call _ => rfl
        | setWorkers n' e j =>
          simp only [List.cons_append, lastLimit]
          rw [if_neg (fun hx => hafter n' e j (by simp) hx.1 hx.2.1)])
      cases x with
      | call _ => exact ih
      | setWorkers n' e j =>
        simp only [List.cons_append, lastLimit]
        rw [if_neg (fun hx => hafter n' e j (by simp) hx.1 hx.2.1)]
        exact ih
  injection hreq with hreq
  rw [hl] at hreq
  subst hreq
  exact C52_thread_limit len _ maxWakeup zz sched w (Or.inr ⟨hk.1, hw⟩)

/-- Case: `np.add` of a million int32 with `atop_setworkers("add", 5, 2)`: worker 3 stays idle. -/
example (sched : List Nat) : (Work.exec (ufuncItem 1000000 2 11 0) sched).pc 3 = .idle :=
  C99_threads_partial allCfg allCfg_std [.call .atopDisable, .setWorkers "multiply" 5 7] [.call .doInit] "add" (by decide) .add rfl 5 5 2 replaced_add
    replaced_add ⟨_, rfl, rfl⟩ (by simp) rfl (by decide)
    (by intro n' e j hm hn; simp only [List.mem_cons, reduceCtorEq, LCall.setWorkers.injEq, List.not_mem_nil, or_false, false_or] at hm; rw [hm.1] at hn; exact absurd hn (by decide))
    1000000 11 0 2
    (by
      rw [C99_limit_partial allCfg allCfg_std _ "add" (by decide) .add rfl 5 replaced_add (by simp)]
      simp only [List.cons_append, List.nil_append, lastLimit]
      rw [if_neg (fun h => absurd h.1 (by decide)), if_pos ⟨rfl, ⟨_, rfl, rfl⟩, replaced_add, by simp, rfl, by decide, by decide⟩])
    sched 3 (by decide)

/-- C99 is false for the name `invert`: `np.bitwise_not` is the same function and is hooked later, so calls use the limit stored under `bitwise_not`, and
`atop_setworkers("invert", d, k)`, though it is accepted and `atop_info("invert", d)` shows k, changes nothing for calls of `np.invert`. -/
theorem C99_invert_violated (c : Cfg) (hc : Std c) (hist : List LCall) (d : Nat) (h1 : Replaced c "invert" d) (h2 : Replaced c "bitwise_not" d)
    (hi : LCall.call .doInit ∈ hist) (hen : lEnabled hist = true) (k : Int) (hk : 0 ≤ k ∧ k < 64) :
    npFunc "invert" = some .invert ∧
    info (WorkerLimit.run c (.setWorkers "invert" d k :: hist)) "invert" d = some k ∧
    limit (WorkerLimit.run c (.setWorkers "invert" d k :: hist)) .invert d = limit (WorkerLimit.run c hist) .invert d ∧
    limit (WorkerLimit.run c hist) .invert d = some (lastLimit c 3 "bitwise_not" d hist) := by
  have hsame : sameType d d := by
    obtain ⟨_, x, hx, _, hxd⟩ := h1
    have := (hooks_mem hx).2
    rw [hxd] at this
    exact atype_same d d this this rfl
  have hlim := fun l hm => C99_limit_partial c hc l "bitwise_not" (by decide) .invert rfl d h2 hm
  refine ⟨rfl, ?_, ?_, hlim hist hi⟩
  · rw [C99_info c hc _ _ _ h1 (by simp [hi])]
    simp only [lastLimit]
    rw [if_pos ⟨rfl, hsame, h1, hi, hen, hk⟩]
  · rw [hlim _ (by simp [hi]), hlim hist hi]
    simp only [lastLimit]
    rw [if_neg (fun h => absurd h.1 (by decide))]

/-- Case: both names are hooked for int32 (as the kernel getters say, `Verif.Model.OpTables`), and `atop_setworkers("invert", 5, 1)` leaves the limit of
`np.invert` at 3. -/
example : limit (WorkerLimit.run allCfg [.setWorkers "invert" 5 1, .call .doInit]) .invert 5 = some 3 := by
  have h := C99_invert_violated allCfg allCfg_std [.call .doInit] 5 ⟨rfl, (⟨.unary, .invert, .INVERT⟩, 5), by decide +kernel, by decide +kernel, rfl⟩
    ⟨rfl, (⟨.unary, .invert, .BITWISE_NOT⟩, 5), by decide +kernel, by decide +kernel, rfl⟩ (by simp) rfl 1 (by decide)
  rw [h.2.2.1, h.2.2.2]
  rfl

end Pnumpy.Props
