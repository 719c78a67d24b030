import Verif.Props.InfoDict
/-
C104 for every call of `initialize()`: when its None is to be believed.
-/
namespace Pnumpy.Props
open Pnumpy.Spec Pnumpy.Hooks Pnumpy.InfoDict

private theorem stub_fold (L : List Hook) (s : Hooks.St) (o : Obj) (d : Nat) :
    (∃ k, (L.foldl Hooks.hookOne s).loops o d = .stub k) ↔ (∃ h ∈ L, h.1.obj = o ∧ h.2 = d) ∨ ∃ k, s.loops o d = .stub k := by
  induction L generalizing s with
  | nil => simp
  | cons h t ih =>
    rw [List.foldl_cons, ih]
    have key : (∃ k, (Hooks.hookOne s h).loops o d = .stub k) ↔ (h.1.obj = o ∧ h.2 = d) ∨ ∃ k, s.loops o d = .stub k := by
      unfold Hooks.hookOne
      split
      · rename_i hg
        constructor
        · exact Or.inr
        · rintro (⟨rfl, rfl⟩ | h1)
          · exact ⟨_, hg.2⟩
          · exact h1
      · simp only
        split
        · rename_i he
          exact ⟨fun _ => Or.inl ⟨he.1.symm, he.2.symm⟩, fun _ => ⟨_, rfl⟩⟩
        · rename_i he
          exact ⟨Or.inr, fun h1 => h1.elim (fun h2 => absurd ⟨h2.1.symm, h2.2.symm⟩ he) id⟩
    rw [key]
    simp only [List.mem_cons, exists_eq_or_imp, or_assoc]
    exact or_left_comm

/-- What `initialize()` replaced: nothing before its first call, then the replacements of that call. -/
private theorem id_stub (M : Layout) (c : Cfg) (hist : List PCall) (o : Obj) (d : Nat) :
    (∃ k, (InfoDict.run M c hist).hooks.loops o d = .stub k) ↔ PCall.doInit ∈ hist ∧ c.avx2 = true ∧ ∃ h ∈ c.hooks, h.1.obj = o ∧ h.2 = d := by
  induction hist with
  | nil => simp [InfoDict.run, InfoDict.init, Hooks.init]
  | cons x t ih =>
    have hin := id_initialized M c t
    cases x <;> simp only [InfoDict.run, InfoDict.step] <;> try (simpa using ih)
    · split
      · rename_i h
        simp only
        rw [id_fold_hooks, stub_fold]
        have hn : ¬ ∃ k, (InfoDict.run M c t).hooks.loops o d = .stub k := by
          rw [ih]
          rintro ⟨h1, -, -⟩
          rw [h.1] at hin
          simp [h1, h.2] at hin
        simp only [h.2, List.mem_cons, true_or, true_and]
        constructor
        · rintro (h1 | h1)
          · exact h1
          · exact absurd h1 hn
        · exact Or.inl
      · rename_i h
        simp only
        rw [ih]
        by_cases ha : c.avx2 = true
        · have : (InfoDict.run M c t).hooks.initialized = true := by
            by_contra hc
            exact h ⟨by simpa using hc, ha⟩
          rw [this] at hin
          have hm : PCall.doInit ∈ t := by
            by_contra hm
            simp [hm] at hin
          simp [hm]
        · simp [ha]
    · split
      · split
        · simpa using ih
        · split
          · split <;> simpa using ih
          · simpa using ih
      · simpa using ih

/-- Second entries of a numpy function: `rint` (RINT after ROUND) and `invert` (BITWISE_NOT after INVERT). -/
private theorem second_entries : allHooks.Pairwise fun x y => x.1.obj = y.1.obj ∧ x.2 = y.2 → y.1.op = .RINT ∨ y.1.op = .BITWISE_NOT := by decide +kernel

private theorem first_init {hist : List PCall} (h : PCall.doInit ∈ hist) : ∃ before after, hist = after ++ .doInit :: before ∧ PCall.doInit ∉ before := by
  induction hist with
  | nil => simp at h
  | cons x t ih =>
    by_cases ht : PCall.doInit ∈ t
    · obtain ⟨b, a, e, hb⟩ := ih ht
      exact ⟨b, x :: a, by rw [e]; rfl, hb⟩
    · rcases List.mem_cons.1 h with rfl | h
      · exact ⟨t, [], rfl, ht⟩
      · exact absurd h ht

/-- **C104**, for every call and every history (also with a changed dictionary): when `initialize()` returns None, every function and element type it was to
take over is taken over exactly if no call of `initialize()` has raised so far.  (`rint` and `invert` are listed
twice; numpy, having accepted the first entry for a type, is assumed not to refuse the second.) -/
theorem C104_iff_partial (M : Layout) (c : Cfg) (hist : List PCall) (hsecond : ∀ n h, c.stop = some n → (allHooks.filter c.sel)[n]? = some h → h.1.op ≠ .RINT ∧ h.1.op ≠ .BITWISE_NOT)
    (hret : (InfoDict.step M c (InfoDict.run M c hist) .doInit).2 = .none) :
    (∀ h ∈ allHooks, c.sel h = true → ∃ k, (InfoDict.run M c (.doInit :: hist)).hooks.loops h.1.obj h.2 = .stub k) ↔
      ∀ before after, .doInit :: hist = after ++ .doInit :: before → (InfoDict.step M c (InfoDict.run M c before) .doInit).2 ≠ .raises := by
  have ha : c.avx2 = true := by
    by_contra ha
    simp only [InfoDict.step] at hret
    rw [if_neg (fun h => ha h.2), if_neg ha] at hret
    cases hret
  have hL : (∀ h ∈ allHooks, c.sel h = true → ∃ k, (InfoDict.run M c (.doInit :: hist)).hooks.loops h.1.obj h.2 = .stub k) ↔ fails c = false := by
    constructor
    · intro hall
      by_contra hf
      have hf : fails c = true := by simpa using hf
      unfold fails at hf
      cases hs : c.stop with
      | none => rw [hs] at hf; simp at hf
      | some n =>
        rw [hs] at hf
        have hn : n < (wanted c).length := by simpa [wanted] using hf
        have hm := List.mem_filter.1 (List.getElem_mem hn : (wanted c)[n] ∈ wanted c)
        obtain ⟨-, -, h', hh', ho, hd⟩ := (id_stub M c _ _ _).1 (hall _ hm.1 hm.2)
        unfold Cfg.hooks at hh'
        rw [hs] at hh'
        have hh'' : h' ∈ (wanted c).take n := hh'
        obtain ⟨i, hi, rfl⟩ := List.mem_iff_getElem.1 hh''
        rw [List.getElem_take] at ho hd
        have hi' : i < n := by simp at hi; omega
        have hp : (wanted c).Pairwise fun x y => x.1.obj = y.1.obj ∧ x.2 = y.2 → y.1.op = .RINT ∨ y.1.op = .BITWISE_NOT :=
          second_entries.sublist List.filter_sublist
        rcases List.pairwise_iff_getElem.1 hp i n (by omega) hn hi' ⟨ho, hd⟩ with h1 | h1
        · exact (hsecond n _ hs (List.getElem?_eq_getElem hn)).1 h1
        · exact (hsecond n _ hs (List.getElem?_eq_getElem hn)).2 h1
    · intro hf h hh hsel
      exact (id_stub M c _ _ _).2 ⟨by simp, ha, h, by rw [hooks_of_ok hf]; exact List.mem_filter.2 ⟨hh, hsel⟩, rfl, rfl⟩
  rw [hL]
  constructor
  · intro hf before after _
    simp only [InfoDict.step]
    split <;> simp [hf, ha]
  · intro hall
    obtain ⟨b, a, e, hb⟩ := first_init (hist := .doInit :: hist) (by simp)
    have h1 := hall b a e
    simp only [InfoDict.step] at h1
    rw [if_pos ⟨by rw [id_initialized]; simp [hb], ha⟩] at h1
    by_contra hf
    rw [if_pos (by simpa using hf)] at h1
    exact h1 rfl

/-- Case: all replacements succeed; the third `initialize()` returns None and every selected loop is pnumpy's. -/
example : ∀ h ∈ allHooks, allCfg.sel h = true →
    ∃ k, (InfoDict.run egLayout allCfg [.doInit, .put "add" 5 .other, .doInit, .atopDisable, .doInit]).hooks.loops h.1.obj h.2 = .stub k := by
  refine (C104_iff_partial egLayout allCfg _ (by intro n h hs; cases hs) ?_).2 ?_
  · simp only [InfoDict.step]
    rw [if_neg (by rw [id_initialized]; simp [allCfg])]
    rfl
  · intro before after _
    simp only [InfoDict.step]
    split <;> simp [fails, allCfg]

/-- Case: numpy refuses the fourth replacement; the second `initialize()` returns None and some selected loop is still numpy's. -/
example : ¬ ∀ h ∈ allHooks, { allCfg with stop := some 3 }.sel h = true →
    ∃ k, (InfoDict.run egLayout { allCfg with stop := some 3 } [.doInit, .doInit]).hooks.loops h.1.obj h.2 = .stub k := by
  rw [C104_iff_partial egLayout { allCfg with stop := some 3 } [.doInit] (by intro n h hs; cases hs; decide +kernel +revert)]
  · intro h
    refine h [] [.doInit] rfl ?_
    simp only [InfoDict.step]
    rw [if_pos ⟨rfl, rfl⟩, if_pos (show fails { allCfg with stop := some 3 } = true by decide +kernel)]
  · simp only [InfoDict.step]
    rw [if_neg (by rw [id_initialized]; simp [allCfg])]
    rfl

end Pnumpy.Props
