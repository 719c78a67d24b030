import Verif.Props.InitOutcome
/-
C105: exactly when atop_info and atop_setworkers access memory outside pnumpy's tables.
-/
namespace Pnumpy.Props
open Pnumpy.Spec Pnumpy.Hooks Pnumpy.InfoDict

/-- A stored value that will be taken for an address outside the tables: not 0, and not the address of a table position; what is no 64-bit integer counts as -1. -/
def BadValue (M : Layout) : DVal → Prop
  | .int w => if -2 ^ 63 ≤ w ∧ w < 2 ^ 63 then w ≠ 0 ∧ M.keyAt w = none else M.keyAt (-1) = none
  | .other => M.keyAt (-1) = none

/-- Python code stored such a value under (n, d) after `initialize()` had made the dictionary, and has not replaced or deleted it since. -/
def StoredBad (M : Layout) (c : Cfg) (n : String) (d : Int) (hist : List PCall) : Prop :=
  ∃ after before v, hist = after ++ .put n d v :: before ∧ PCall.doInit ∈ before ∧ c.avx2 = true ∧
    (∀ v', PCall.put n d v' ∉ after) ∧ PCall.del n d ∉ after ∧ BadValue M v

private theorem stored_cons {M : Layout} {c : Cfg} {n : String} {d : Int} {x : PCall} {t : List PCall} :
    StoredBad M c n d (x :: t) ↔ (∃ v, x = .put n d v ∧ PCall.doInit ∈ t ∧ c.avx2 = true ∧ BadValue M v) ∨
      ((∀ v, x ≠ .put n d v) ∧ x ≠ .del n d ∧ StoredBad M c n d t) := by
  constructor
  · rintro ⟨after, before, v, h1, h2, h3, h4, h5, h6⟩
    cases after with
    | nil =>
      injection h1 with h1 h1'
      subst h1'
      exact Or.inl ⟨v, h1, h2, h3, h6⟩
    | cons y a =>
      injection h1 with h1 h1'
      subst h1
      exact Or.inr ⟨fun v' e => h4 v' (by rw [e]; exact List.mem_cons_self ..), fun e => h5 (by rw [e]; exact List.mem_cons_self ..),
        a, before, v, h1', h2, h3, fun v' hm => h4 v' (List.mem_cons_of_mem _ hm), fun hm => h5 (List.mem_cons_of_mem _ hm), h6⟩
  · rintro (⟨v, rfl, h1, h2, h3⟩ | ⟨h1, h2, after, before, v, rfl, h3, h4, h5, h6, h7⟩)
    · exact ⟨[], t, v, rfl, h1, h2, by simp, by simp, h3⟩
    · refine ⟨x :: after, before, v, rfl, h3, h4, ?_, ?_, h7⟩
      · intro v' hm
        rcases List.mem_cons.1 hm with e | hm
        · exact h1 v' e.symm
        · exact h5 v' hm
      · intro hm
        rcases List.mem_cons.1 hm with e | hm
        · exact h2 e.symm
        · exact h6 hm

/-- The dictionary entry under (n, d) is one that Python code stored. -/
private def Entry (M : Layout) (c : Cfg) (n : String) (d : Int) (hist : List PCall) : Prop :=
  ((InfoDict.run M c hist).dict = none ∧ ¬ (PCall.doInit ∈ hist ∧ c.avx2 = true) ∧ ¬ StoredBad M c n d hist) ∨
  ∃ f, (InfoDict.run M c hist).dict = some f ∧ (PCall.doInit ∈ hist ∧ c.avx2 = true) ∧
    ((∃ v, f n d = some v ∧ BadValue M v) ↔ StoredBad M c n d hist)

private theorem entry_keep {M : Layout} {c : Cfg} {n : String} {d : Int} {x : PCall} {t : List PCall} (ih : Entry M c n d t)
    (hd : (InfoDict.run M c (x :: t)).dict = (InfoDict.run M c t).dict) (h1 : ∀ v, x ≠ .put n d v) (h2 : x ≠ .del n d)
    (h3 : PCall.doInit ∈ x :: t ∧ c.avx2 = true ↔ PCall.doInit ∈ t ∧ c.avx2 = true) : Entry M c n d (x :: t) := by
  have hs : StoredBad M c n d (x :: t) ↔ StoredBad M c n d t := by
    rw [stored_cons]
    constructor
    · rintro (⟨v, e, -⟩ | h)
      · exact absurd e (h1 v)
      · exact h.2.2
    · exact fun h => Or.inr ⟨h1, h2, h⟩
  unfold Entry
  rw [hd, h3, hs]
  exact ih

private theorem entry_run (M : Layout) (c : Cfg) (n : String) (d : Int) : ∀ hist, Entry M c n d hist
  | [] => Or.inl ⟨rfl, by simp, by rintro ⟨a, b, v, h, -⟩; simp at h⟩
  | x :: t => by
    have ih := entry_run M c n d t
    have hin := id_initialized M c t
    cases x with
    | doInit =>
      by_cases hp : PCall.doInit ∈ t ∨ c.avx2 = false
      · refine entry_keep ih ?_ (by simp) (by simp) ?_
        · simp only [InfoDict.run, InfoDict.step]
          rw [if_neg]
          rintro ⟨h1, h2⟩
          rw [hin] at h1
          rcases hp with hp | hp
          · simp [hp, h2] at h1
          · rw [hp] at h2; cases h2
        · rcases hp with hp | hp <;> simp [hp]
      · rw [not_or] at hp
        have ha : c.avx2 = true := by simpa using hp.2
        right
        simp only [InfoDict.run, InfoDict.step]
        rw [if_pos ⟨by rw [hin]; simp [hp.1], ha⟩]
        obtain ⟨g, hg, h1⟩ := id_fold_dict M n d c.hooks
          { InfoDict.run M c t with hooks := { (InfoDict.run M c t).hooks with initialized := true, old := fun _ => none }, dict := some fun _ _ => none } _ rfl
        refine ⟨g, hg, ⟨by simp, ha⟩, ?_⟩
        have hno : ¬ StoredBad M c n d (.doInit :: t) := by
          rw [stored_cons]
          rintro (⟨v, e, -⟩ | ⟨-, -, a, b, v, rfl, hb, -⟩)
          · cases e
          · exact hp.1 (by simp [hb])
        refine ⟨?_, fun h => absurd h hno⟩
        rintro ⟨v, hv, hbad⟩
        rcases h1 with ⟨h1, -⟩ | ⟨h, hm, -, h1⟩
        · rw [hv] at h1; cases h1
        · rw [hv] at h1
          injection h1 with h1
          subst h1
          have hm' : h ∈ allHooks := by
            unfold Cfg.hooks at hm
            split at hm
            · exact (List.mem_filter.1 (List.mem_of_mem_take hm)).1
            · exact (List.mem_filter.1 hm).1
          have hu := M.user h hm'
          have hk := M.keyAt_addr h hm'
          simp only [BadValue] at hbad
          rw [if_pos ⟨by omega, hu.2⟩, hk] at hbad
          cases hbad.2
    | put n' d' v' =>
      by_cases e : n' = n ∧ d' = d
      · obtain ⟨rfl, rfl⟩ := e
        have hs : StoredBad M c n' d' (.put n' d' v' :: t) ↔ PCall.doInit ∈ t ∧ c.avx2 = true ∧ BadValue M v' := by
          rw [stored_cons]
          constructor
          · rintro (⟨v, e, h⟩ | ⟨h, -⟩)
            · injection e with _ _ e; subst e; exact h
            · exact absurd rfl (h v')
          · exact fun h => Or.inl ⟨v', rfl, h⟩
        rcases ih with ⟨h1, h2, -⟩ | ⟨f, h1, h2, -⟩
        · left
          refine ⟨by simp only [InfoDict.run, InfoDict.step, h1, Option.map_none], by simpa using h2, ?_⟩
          rw [hs]
          exact fun h => h2 ⟨h.1, h.2.1⟩
        · right
          refine ⟨setItem f n' d' (some v'), by simp only [InfoDict.run, InfoDict.step, h1, Option.map_some], by simpa using h2, ?_⟩
          rw [hs]
          simp [setItem, h2.1, h2.2]
      · have hne : ∀ v, PCall.put n' d' v' ≠ .put n d v := by
          intro v e'
          injection e' with e1 e2
          exact e ⟨e1, e2⟩
        have hs : StoredBad M c n d (.put n' d' v' :: t) ↔ StoredBad M c n d t := by
          rw [stored_cons]
          constructor
          · rintro (⟨v, e', -⟩ | h)
            · exact absurd e' (hne v)
            · exact h.2.2
          · exact fun h => Or.inr ⟨hne, by simp, h⟩
        rcases ih with ⟨h1, h2, h3⟩ | ⟨f, h1, h2, h3⟩
        · left
          exact ⟨by simp only [InfoDict.run, InfoDict.step, h1, Option.map_none], by simpa using h2, by rwa [hs]⟩
        · right
          refine ⟨setItem f n' d' (some v'), by simp only [InfoDict.run, InfoDict.step, h1, Option.map_some], by simpa using h2, ?_⟩
          rw [hs, ← h3]
          unfold setItem
          rw [if_neg (fun h => e ⟨h.1.symm, h.2.symm⟩)]
    | del n' d' =>
      by_cases e : n' = n ∧ d' = d
      · obtain ⟨rfl, rfl⟩ := e
        have hs : ¬ StoredBad M c n' d' (.del n' d' :: t) := by
          rw [stored_cons]
          rintro (⟨v, e, -⟩ | ⟨-, h, -⟩)
          · cases e
          · exact h rfl
        rcases ih with ⟨h1, h2, -⟩ | ⟨f, h1, h2, -⟩
        · left
          exact ⟨by simp only [InfoDict.run, InfoDict.step, h1, Option.map_none], by simpa using h2, hs⟩
        · right
          refine ⟨setItem f n' d' none, by simp only [InfoDict.run, InfoDict.step, h1, Option.map_some], by simpa using h2, ?_⟩
          simp [setItem, hs]
      · have hne : PCall.del n' d' ≠ .del n d := by
          intro e'
          injection e' with e1 e2
          exact e ⟨e1, e2⟩
        have hs : StoredBad M c n d (.del n' d' :: t) ↔ StoredBad M c n d t := by
          rw [stored_cons]
          constructor
          · rintro (⟨v, e', -⟩ | h)
            · cases e'
            · exact h.2.2
          · exact fun h => Or.inr ⟨by simp, hne, h⟩
        rcases ih with ⟨h1, h2, h3⟩ | ⟨f, h1, h2, h3⟩
        · left
          exact ⟨by simp only [InfoDict.run, InfoDict.step, h1, Option.map_none], by simpa using h2, by rwa [hs]⟩
        · right
          refine ⟨setItem f n' d' none, by simp only [InfoDict.run, InfoDict.step, h1, Option.map_some], by simpa using h2, ?_⟩
          rw [hs, ← h3]
          unfold setItem
          rw [if_neg (fun h => e ⟨h.1.symm, h.2.symm⟩)]
    | setWorkers n' d' k =>
      refine entry_keep ih ?_ (by simp) (by simp) (by simp)
      simp only [InfoDict.run, InfoDict.step]
      split
      · split
        · rfl
        · split
          · split <;> rfl
          · rfl
      · rfl
    | _ => exact entry_keep ih rfl (by simp) (by simp) (by simp)

private theorem wild_iff (M : Layout) (c : Cfg) (hist : List PCall) (n : String) (d : Int) :
    (getFromDict (InfoDict.run M c hist) n d ≠ 0 ∧ M.keyAt (getFromDict (InfoDict.run M c hist) n d) = none) ↔ StoredBad M c n d hist := by
  rcases entry_run M c n d hist with ⟨h1, -, h2⟩ | ⟨f, h1, -, h2⟩
  · simp [getFromDict, h1, h2]
  · rw [← h2]
    unfold getFromDict
    rw [h1]
    simp only
    cases hf : f n d with
    | none => simp
    | some v =>
      simp only [Option.some.injEq, exists_eq_left']
      cases v with
      | other => simp [BadValue]
      | int w =>
        simp only [BadValue]
        split <;> simp

/-- **C105**, exactly: `atop_info(name, number)` reads outside pnumpy's tables if and only if Python code stored, after the dictionary was made, a value under that name
and number that is taken for an address outside the tables, and has not replaced or deleted it since; `atop_setworkers(name, number, k)` writes there in the same cases,
provided pnumpy is enabled and k is in its range; `atop_info()` fails without an exception if and only if no `initialize()` has made the dictionary. -/
theorem C105_iff_partial (M : Layout) (c : Cfg) (hist : List PCall) (n : String) (d k : Int) :
    ((InfoDict.step M c (InfoDict.run M c hist) (.info n d)).2 = .wild ↔ StoredBad M c n d hist) ∧
    ((InfoDict.step M c (InfoDict.run M c hist) (.setWorkers n d k)).2 = .wild ↔
      StoredBad M c n d hist ∧ (InfoDict.run M c hist).hooks.atop = true ∧ 0 ≤ k ∧ k < 64) ∧
    ((InfoDict.step M c (InfoDict.run M c hist) .infoAll).2 = .systemError ↔ ¬ (PCall.doInit ∈ hist ∧ c.avx2 = true)) := by
  have hw := wild_iff M c hist n d
  refine ⟨?_, ?_, ?_⟩
  · rw [← hw]
    simp only [InfoDict.step]
    split
    · rename_i h; simp [h]
    · rename_i h
      split <;> rename_i hk <;> simp [h, hk]
  · rw [← hw]
    simp only [InfoDict.step]
    split
    · rename_i ha
      split
      · rename_i h; simp [h]
      · rename_i h
        split
        · rename_i hk
          split <;> rename_i hq <;> simp [ha, h, hk, hq]
        · rename_i hk
          simp only [reduceCtorEq, false_iff]
          exact fun h' => hk h'.2.2
    · rename_i ha; simp [ha]
  · rcases entry_run M c n d hist with ⟨h1, h2, -⟩ | ⟨f, h1, h2, -⟩
    · simp only [InfoDict.step, h1, true_iff]; exact h2
    · simp only [InfoDict.step, h1, reduceCtorEq, false_iff, not_not]; exact h2

/-- Case: a value stored before `initialize()` is lost, one stored afterwards and deleted again does no harm, one left there is followed. -/
example : (InfoDict.step egLayout allCfg (InfoDict.run egLayout allCfg [.del "add" 5, .put "add" 5 (.int 1), .doInit, .put "add" 5 .other]) (.info "add" 5)).2 ≠ .wild ∧
    (InfoDict.step egLayout allCfg (InfoDict.run egLayout allCfg [.doInit, .put "mine" 0 (.int 1), .del "add" 5, .doInit]) (.info "mine" 0)).2 = .wild := by
  constructor
  · rw [Ne, (C105_iff_partial egLayout allCfg _ "add" 5 0).1, stored_cons]
    rintro (⟨v, e, -⟩ | ⟨-, h, -⟩)
    · cases e
    · exact h rfl
  · rw [(C105_iff_partial egLayout allCfg _ "mine" 0 0).1]
    refine ⟨[.doInit], [.del "add" 5, .doInit], .int 1, rfl, by simp, rfl, by simp, by simp, ?_⟩
    simp only [BadValue]
    rw [if_pos (by decide)]
    exact ⟨by decide, by decide +kernel⟩

end Pnumpy.Props
