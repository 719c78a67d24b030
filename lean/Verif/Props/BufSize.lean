import Verif.Model.BufSize
/-
Property theorems C107: pnumpy and numpy's buffer size.
-/
namespace Pnumpy.Props
open Pnumpy.Spec.BufSize

theorem bs_initialized (d : Nat) : ∀ h : List Event, (BufSize.run d h).initialized = true ↔ ∃ u, Event.initialize_ u ∈ h
  | [] => by simp [BufSize.run, BufSize.init]
  | e :: h => by
    have ih := bs_initialized d h
    cases e with
    | userSets t k => simp [BufSize.run, BufSize.step, ih]
    | other t => simp [BufSize.run, BufSize.step, ih]
    | initialize_ t =>
      rw [BufSize.run, BufSize.step]
      constructor
      · intro _; exact ⟨t, List.mem_cons_self ..⟩
      · intro _
        split
        · assumption
        · rfl

/-- **C107** (partial): for every history and thread, `np.getbufsize()` is what the thread set last, unless the first `initialize()` of the process ran in this thread
after that; no other call, and no second `initialize()`, changes it. -/
theorem C107_unchanged_partial (dflt : Nat) (t : Nat) : ∀ h : List Event, Untouched t h → (BufSize.run dflt h).size t = lastSet dflt t h
  | [], _ => rfl
  | .userSets t' k :: h, hu => by
    rw [BufSize.run, BufSize.step, lastSet]
    by_cases e : t' = t
    · simp [e]
    · have : Untouched t h := by
        rcases hu with h1 | h1
        · exact absurd h1 e
        · exact h1
      simp only [if_neg e, if_neg (fun h' => e (Eq.symm h'))]
      exact C107_unchanged_partial dflt t h this
  | .other t' :: h, hu => C107_unchanged_partial dflt t h hu
  | .initialize_ t' :: h, hu => by
    obtain ⟨h1, h2⟩ := hu
    have ih := C107_unchanged_partial dflt t h h2
    rw [BufSize.run, BufSize.step, lastSet]
    by_cases hi : (BufSize.run dflt h).initialized = true
    · rw [if_pos hi]; exact ih
    · rw [if_neg hi]
      have e : t' ≠ t := fun e => hi ((bs_initialized dflt h).2 (h1 e))
      show (if t = t' then 8192 * 1024 else (BufSize.run dflt h).size t) = _
      rw [if_neg (fun h' => e h'.symm)]; exact ih

/-- Case: thread 1 sets 65536, thread 0 imports pnumpy; thread 0 sets 16000 afterwards and initialises again. -/
example : (BufSize.run 8192 [.initialize_ 0, .other 1, .userSets 0 16000, .initialize_ 0, .userSets 1 65536]).size 1 = 65536 ∧
    (BufSize.run 8192 [.initialize_ 0, .other 1, .userSets 0 16000, .initialize_ 0, .userSets 1 65536]).size 0 = 16000 :=
  ⟨C107_unchanged_partial 8192 1 _ (by simp [Untouched]), C107_unchanged_partial 8192 0 _ (by simp [Untouched])⟩

/-- **C107 violated**: the first `initialize()` (so: `import pnumpy`) replaces the size the thread had chosen by 8388608, and nothing but the user's own `np.setbufsize`
brings it back - not `disable()`, not any other call. -/
theorem C107_import_violated (dflt : Nat) (t : Nat) (before after : List Event) (hb : ∀ u, Event.initialize_ u ∉ before)
    (ha : ∀ k, Event.userSets t k ∉ after) : (BufSize.run dflt (after ++ .initialize_ t :: before)).size t = 8388608 := by
  induction after with
  | nil =>
    have hi : ¬ (BufSize.run dflt before).initialized = true := fun h => by
      obtain ⟨u, hu⟩ := (bs_initialized dflt before).1 h
      exact hb u hu
    rw [List.nil_append, BufSize.run, BufSize.step, if_neg hi]
    simp
  | cons e after ih =>
    have ih := ih (fun k hk => ha k (List.mem_cons_of_mem _ hk))
    have hi : (BufSize.run dflt (after ++ .initialize_ t :: before)).initialized = true := (bs_initialized _ _).2 ⟨t, by simp⟩
    rw [List.cons_append, BufSize.run]
    cases e with
    | other u => exact ih
    | initialize_ u => rw [BufSize.step, if_pos hi]; exact ih
    | userSets u k =>
      have e : t ≠ u := fun h => ha k (by rw [h]; exact List.mem_cons_self ..)
      show (if t = u then k else _) = _
      rw [if_neg e]; exact ih

/-- Case: the user sets 65536, imports pnumpy and calls pn.disable(). -/
example : (BufSize.run 8192 ([.other 0] ++ .initialize_ 0 :: [.userSets 0 65536])).size 0 = 8388608 ∧
    lastSet 8192 0 ([.other 0] ++ .initialize_ 0 :: [.userSets 0 65536]) = 65536 :=
  ⟨C107_import_violated 8192 0 [.userSets 0 65536] [.other 0] (by simp) (by simp), rfl⟩

private theorem bs_touched (dflt : Nat) (t : Nat) : ∀ h : List Event, ¬ Untouched t h → (BufSize.run dflt h).size t = 8388608
  | [], hu => absurd trivial hu
  | .userSets t' k :: h, hu => by
    rw [Untouched, not_or] at hu
    rw [BufSize.run, BufSize.step]
    simp only [if_neg (fun h' => hu.1 (Eq.symm h'))]
    exact bs_touched dflt t h hu.2
  | .other t' :: h, hu => bs_touched dflt t h hu
  | .initialize_ t' :: h, hu => by
    rw [BufSize.run, BufSize.step]
    by_cases hi : (BufSize.run dflt h).initialized = true
    · rw [if_pos hi]
      refine bs_touched dflt t h fun h2 => hu ⟨fun _ => (bs_initialized dflt h).1 hi, h2⟩
    · rw [if_neg hi]
      show (if t = t' then 8192 * 1024 else (BufSize.run dflt h).size t) = _
      by_cases e : t = t'
      · rw [if_pos e]
      · rw [if_neg e]
        exact bs_touched dflt t h fun h2 => hu ⟨fun h' => absurd h'.symm e, h2⟩

/-- **C107**, exactly: after any history `np.getbufsize()` in a thread is what that thread set last if and only if the first `initialize()` of the process has not run
in this thread since then, or the thread happens to have set 8388608; otherwise it is 8388608. -/
theorem C107_iff_partial (dflt : Nat) (t : Nat) (h : List Event) :
    ((BufSize.run dflt h).size t = lastSet dflt t h ↔ Untouched t h ∨ lastSet dflt t h = 8388608) ∧
    ((BufSize.run dflt h).size t = lastSet dflt t h ∨ (BufSize.run dflt h).size t = 8388608) := by
  by_cases hu : Untouched t h
  · have := C107_unchanged_partial dflt t h hu
    exact ⟨⟨fun _ => Or.inl hu, fun _ => this⟩, Or.inl this⟩
  · have := bs_touched dflt t h hu
    refine ⟨⟨fun h' => Or.inr (by rw [← h', this]), ?_⟩, Or.inr this⟩
    rintro (h' | h')
    · exact absurd h' hu
    · rw [this, h']

/-- Case: a thread sets 16000, imports pnumpy and disables it: the size is not 16000. -/
example : (BufSize.run 8192 [.other 0, .initialize_ 0, .userSets 0 16000]).size 0 ≠ 16000 := fun h => by
  have := (C107_iff_partial 8192 0 [.other 0, .initialize_ 0, .userSets 0 16000]).1.1 h
  simp [Untouched, lastSet] at this

end Pnumpy.Props
