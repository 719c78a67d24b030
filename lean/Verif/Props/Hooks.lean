import Verif.Proofs.Hooks
/-
C36: enabling and disabling pnumpy.
-/
namespace Pnumpy.Props
open Pnumpy.Spec Pnumpy.Hooks

theorem atop_run (c : Cfg) (hist : List Call) : (run c hist).atop = enabledNow hist ∧ (!(run c hist).noThreading) = threadsNow hist ∧
    (run c hist).subHooked = getitemNow hist ∧ (run c hist).subSaved = getitemNow hist := by
  induction hist with
  | nil => simp [run, init, enabledNow, threadsNow, getitemNow]
  | cons x t ih =>
    obtain ⟨h1, h2, h3, h4⟩ := ih
    cases x <;> simp only [run, step, enabledNow, threadsNow, getitemNow]
    · split
      · have := fold_keeps c.hooks { run c t with initialized := true, old := fun _ => none }
        rw [this.1, this.2.1, this.2.2.2.1, this.2.2.2.2]
        exact ⟨h1, h2, h3, h4⟩
      · exact ⟨h1, h2, h3, h4⟩
    · exact ⟨by first | rfl | trivial, h2, h3, h4⟩
    · exact ⟨by first | rfl | trivial, h2, h3, h4⟩
    · exact ⟨h1, by first | rfl | trivial, h3, h4⟩
    · exact ⟨h1, by first | rfl | trivial, h3, h4⟩
    · split
      · exact ⟨h1, h2, by first | rfl | trivial, by first | rfl | trivial⟩
      · rename_i hh
        rw [h4] at hh
        exact ⟨h1, h2, by rw [h3]; simpa using hh, by rw [h4]; simpa using hh⟩
    · split
      · exact ⟨h1, h2, by first | rfl | trivial, by first | rfl | trivial⟩
      · rename_i hh
        rw [h4] at hh
        exact ⟨h1, h2, by rw [h3]; simpa using hh, by rw [h4]; simpa using hh⟩
    · exact ⟨h1, h2, h3, h4⟩

/-- The loop of `o` for dtype `d` was replaced: `initialize` ran on a supported machine and got to it. -/
def Hooked (c : Cfg) (hist : List Call) (o : Obj) (d : Nat) : Prop :=
  Call.doInit ∈ hist ∧ c.avx2 = true ∧ ∃ h ∈ c.hooks, h.1.obj = o ∧ h.2 = d

/-- C36: after every sequence of calls, when pnumpy is disabled every numpy function computes with
numpy's own loop for that function and a dtype of the same representation (long and long long share one). -/
theorem C36_disabled_is_numpy (c : Cfg) (hist : List Call) (hoff : enabledNow hist = false) (o : Obj) (d : Nat) :
    ∃ d', (d' = d ∨ sameType d d') ∧ Runs c (run c hist) ((run c hist).loops o d) (.numpy o d') := by
  have ha : (run c hist).atop = false := by rw [(atop_run c hist).1, hoff]
  obtain ⟨hi, _⟩ := run_inv c hist
  have hsub : (if Call.doInit ∈ hist ∧ c.avx2 = true then c.hooks else []).Sublist allHooks := by
    split
    · exact hooks_sublist c
    · exact List.nil_sublist _
  generalize (if Call.doInit ∈ hist ∧ c.avx2 = true then c.hooks else []) = L at hi hsub
  have hl := hi.loops o d
  split at hl
  · rename_i h hlast
    obtain ⟨hm, ho, hd⟩ := lastHook_some hlast
    obtain ⟨d', hd', hat, hr⟩ := resolves c _ L hsub hi ha _ h hm rfl
    refine ⟨d', Or.inr ?_, ?_⟩
    · subst hd
      exact atype_same _ _ (allHooks_mem h (hsub.subset hm)).2 hd' hat.symm
    · rw [hl, ← ho]; exact hr
  · exact ⟨d, Or.inl rfl, by rw [hl]; exact Runs.numpy _ _⟩

/-- What the operation code of a table computes, as a numpy function: the codes are named after the function they stand for
(src/atop/common_inc.h:197-330); np.rint may be served by `ROUND` or `RINT`, np.invert by `INVERT` or `BITWISE_NOT`. -/
def Means : Tbl → Op → Obj → Prop
  | .binary, .ADD, o => o = .add | .binary, .SUB, o => o = .subtract | .binary, .MUL, o => o = .multiply
  | .binary, .DIV, o => o = .trueDivide | .binary, .FLOORDIV, o => o = .floorDivide | .binary, .MIN, o => o = .minimum
  | .binary, .MAX, o => o = .maximum | .binary, .POWER, o => o = .power | .binary, .REMAINDER, o => o = .remainder
  | .binary, .LOGICAL_AND, o => o = .logicalAnd | .binary, .LOGICAL_OR, o => o = .logicalOr
  | .binary, .BITWISE_AND, o => o = .bitwiseAnd | .binary, .BITWISE_OR, o => o = .bitwiseOr
  | .binary, .BITWISE_XOR, o => o = .bitwiseXor | .binary, .BITWISE_LSHIFT, o => o = .leftShift
  | .binary, .BITWISE_RSHIFT, o => o = .rightShift
  | .compare, .CMP_EQ, o => o = .equal | .compare, .CMP_NE, o => o = .notEqual | .compare, .CMP_GT, o => o = .greater
  | .compare, .CMP_GTE, o => o = .greaterEqual | .compare, .CMP_LT, o => o = .less | .compare, .CMP_LTE, o => o = .lessEqual
  | .unary, .ABS, o => o = .absolute | .unary, .SIGNBIT, o => o = .signbit | .unary, .FABS, o => o = .fabs
  | .unary, .INVERT, o => o = .invert | .unary, .BITWISE_NOT, o => o = .invert | .unary, .FLOOR, o => o = .floor
  | .unary, .CEIL, o => o = .ceil | .unary, .TRUNC, o => o = .trunc | .unary, .ROUND, o => o = .rint
  | .unary, .RINT, o => o = .rint | .unary, .NEGATIVE, o => o = .negative | .unary, .POSITIVE, o => o = .positive
  | .unary, .SIGN, o => o = .sign | .unary, .SQRT, o => o = .sqrt | .unary, .SQUARE, o => o = .square
  | .unary, .RECIPROCAL, o => o = .reciprocal | .unary, .LOGICAL_NOT, o => o = .logicalNot
  | .unary, .ISINF, o => o = .isinf | .unary, .ISNAN, o => o = .isnan | .unary, .ISFINITE, o => o = .isfinite
  | .trig, .SIN, o => o = .sin | .trig, .COS, o => o = .cos | .trig, .TAN, o => o = .tan | .trig, .ASIN, o => o = .arcsin
  | .trig, .ACOS, o => o = .arccos | .trig, .ATAN, o => o = .arctan | .trig, .SINH, o => o = .sinh
  | .trig, .COSH, o => o = .cosh | .trig, .TANH, o => o = .tanh | .trig, .ASINH, o => o = .arcsinh
  | .trig, .ACOSH, o => o = .arccosh | .trig, .ATANH, o => o = .arctanh | .trig, .CBRT, o => o = .cbrt
  | .trig, .EXP, o => o = .exp | .trig, .EXP2, o => o = .exp2 | .trig, .EXPM1, o => o = .expm1
  | .trig, .LOG, o => o = .log | .trig, .LOG2, o => o = .log2 | .trig, .LOG10, o => o = .log10 | .trig, .LOG1P, o => o = .log1p
  | .sort, .kind k, o => o = .sort k | .argsort, .kind k, o => o = .argsort k
  | .argminmax, .argmax, o => o = .argmax | .argminmax, .argmin, o => o = .argmin
  | .arange, .fill, o => o = .fill
  | _, _, _ => False

instance (t : Tbl) (p : Op) (o : Obj) : Decidable (Means t p o) := by
  unfold Means; split <;> infer_instance

private theorem entries_mean : ∀ e ∈ entries, Means e.tbl e.op e.obj := by decide +kernel

/-- C36: after every sequence of calls, when pnumpy is enabled a hooked loop computes with pnumpy's own
kernel, one whose operation means this numpy function, and of this dtype; a loop that was not hooked
computes with numpy's. -/
theorem C36_enabled_is_pnumpy (c : Cfg) (hist : List Call) (hon : enabledNow hist = true) (o : Obj) (d : Nat) :
    (Hooked c hist o d → (∀ h ∈ c.hooks, h.1.obj = o → h.2 = d → c.kernel h.key = true) →
      ∃ tbl op, Means tbl op o ∧ Runs c (run c hist) ((run c hist).loops o d) (.pnumpy ⟨tbl, op, atype d⟩)) ∧
    (¬ Hooked c hist o d → Runs c (run c hist) ((run c hist).loops o d) (.numpy o d)) := by
  have ha : (run c hist).atop = true := by rw [(atop_run c hist).1, hon]
  obtain ⟨hi, _⟩ := run_inv c hist
  have hl := hi.loops o d
  constructor
  · rintro ⟨h1, h2, h, hm, ho, hd⟩ hk
    rw [if_pos ⟨h1, h2⟩] at hl
    split at hl
    · rename_i h' hlast
      obtain ⟨hm', ho', hd'⟩ := lastHook_some hlast
      refine ⟨h'.1.tbl, h'.1.op, ho' ▸ entries_mean _ (allHooks_mem h' ((hooks_sublist c).subset hm')).1, ?_⟩
      rw [hl, ← hd']
      exact Runs.kernel _ ⟨ha, hk h' hm' ho' hd'⟩
    · rename_i hlast
      exfalso
      unfold lastHook at hlast
      rw [List.find?_eq_none] at hlast
      have := hlast h (by simpa using hm)
      simp [ho, hd] at this
  · intro hn
    split at hl
    · rename_i h' hlast
      exfalso
      by_cases hc : Call.doInit ∈ hist ∧ c.avx2 = true
      · rw [if_pos hc] at hlast
        obtain ⟨hm', ho', hd'⟩ := lastHook_some hlast
        exact hn ⟨hc.1, hc.2, h', hm', ho', hd'⟩
      · rw [if_neg hc] at hlast
        simp [lastHook] at hlast
    · rw [hl]; exact Runs.numpy _ _

/-- A call never has two outcomes. -/
theorem C36_deterministic (c : Cfg) (s : St) (l : Loop) (r r' : Ran) (h : Runs c s l r) (h' : Runs c s l r') : r = r' :=
  runs_unique c s l r r' h h'

/-- C36: `initialize` twice is the same as once, whatever happened in between. -/
theorem C36_initialize_idempotent (c : Cfg) (hist : List Call) (h : Call.doInit ∈ hist) : run c (Call.doInit :: hist) = run c hist := by
  have h2 := (run_inv c hist).2
  show step c (run c hist) Call.doInit = _
  unfold step
  rw [if_neg]
  rintro ⟨a, b⟩
  rw [a] at h2
  simp [h, b] at h2

/-- C36: no saved original is ever pnumpy's own stub for the same table position, nor does it call back
to it through other saved loops: following saved loops with pnumpy disabled reaches numpy (previous
theorem), and directly: -/
theorem C36_saved_not_own_partial (c : Cfg) (hist : List Call) (k : Key) : (run c hist).old k ≠ some (.stub k) := by
  intro hk
  obtain ⟨hi, _⟩ := run_inv c hist
  obtain ⟨h, _, _, hor⟩ := hi.old k _ hk
  rcases hor with hor | ⟨h', _, _, _, he, hr⟩
  · cases hor
  · injection he with he
    rw [← he] at hr
    exact Nat.lt_irrefl _ hr

/-- `pn.disable()` (both switches off): every call is one unsplit call of numpy's loop. -/
theorem C36_pn_disable (c : Cfg) (hist : List Call) (hoff : enabledNow hist = false) (ht : threadsNow hist = false) (o : Obj) (d n : Nat) :
    split (run c hist) o d n = false ∧
      ∃ d', (d' = d ∨ sameType d d') ∧ Runs c (run c hist) ((run c hist).loops o d) (.numpy o d') := by
  refine ⟨?_, C36_disabled_is_numpy c hist hoff o d⟩
  have h := (atop_run c hist).2.1
  rw [ht] at h
  unfold split
  split
  · rw [h]; simp
  · rfl

/-- C36: indexing goes through pnumpy exactly after `hook_enable`. -/
theorem C36_getitem_hook (c : Cfg) (hist : List Call) : (run c hist).subHooked = getitemNow hist := (atop_run c hist).2.2.1

/-- A configuration: everything hooked, no error. -/
def cfgAll : Cfg := { avx2 := true, sel := fun _ => true, stop := none, kernel := fun _ => true }

example : Hooked cfgAll [.atopEnable, .atopDisable, .doInit] .add 5 ∧ enabledNow [.atopEnable, .atopDisable, .doInit] = true ∧
    enabledNow [.other, .atopDisable, .doInit] = false ∧ (∀ h ∈ cfgAll.hooks, h.1.obj = .add → h.2 = 5 → cfgAll.kernel h.key = true) := by
  refine ⟨⟨by decide, rfl, (⟨.binary, .add, .ADD⟩, 5), by decide +kernel, rfl, rfl⟩, rfl, rfl, fun _ _ _ _ => rfl⟩

/-- C36 is weaker than it should be for `np.invert`: it is hooked a second time as `np.bitwise_not` (the
same function object), so the saved "original" of the second hook is pnumpy's first stub. -/
theorem C36_saved_is_pnumpy_violated :
    (run cfgAll [.doInit]).old ⟨.unary, .BITWISE_NOT, 5⟩ = some (.stub ⟨.unary, .INVERT, 5⟩) := by decide +kernel

/-- C36 is false of `pn.disable()` for indexing: an installed `__getitem__` hook stays, although the
documentation says numpy functions are unhooked. -/
theorem C36_disable_keeps_getitem_violated (c : Cfg) (older : List Call) :
    (run c (.threadDisable :: .atopDisable :: .hookEnable :: older)).subHooked = true := by
  rw [C36_getitem_hook]; rfl

/-- `atop_disable()` alone does not give back numpy's calls: large ones are still split among threads. -/
theorem C36_atop_disable_splits_violated (n : Nat) (hn : 65536 ≤ n) :
    split (run cfgAll [.atopDisable, .doInit]) .subtract 12 n = true := by
  have h1 : (run cfgAll [.atopDisable, .doInit]).loops .subtract 12 = .stub ⟨.binary, .SUB, 13⟩ := by decide +kernel
  have h2 : (run cfgAll [.atopDisable, .doInit]).noThreading = false := by decide +kernel
  unfold split
  rw [h1, h2]
  simp [hn]

/-- C36 is false after the exported `oldinit(name)`: the int32 loop of any function adds, disabled or not. -/
theorem C36_oldinit_violated (c : Cfg) (hist : List Call) (o : Obj) (r : Ran) :
    Runs c (oldinit (run c hist) o) ((oldinit (run c hist) o).loops o 5) r → r = .addT := by
  intro h
  have : (oldinit (run c hist) o).loops o 5 = .addT := by simp [oldinit]
  rw [this] at h
  cases h; rfl

/-- Cases: initialized, then disabled; initialized. -/
example (c : Cfg) (o : Obj) (d : Nat) := C36_disabled_is_numpy c [.atopDisable, .doInit] rfl o d

/-- Case: np.add of int32 (numpy type 5) after disabling and enabling again. -/
example := (C36_enabled_is_pnumpy cfgAll [.atopEnable, .atopDisable, .doInit] rfl .add 5).1
  ⟨by decide, rfl, (⟨.binary, .add, .ADD⟩, 5), by decide +kernel, rfl, rfl⟩ (fun _ _ _ _ => rfl)

/-- Case: initialize twice. -/
example (c : Cfg) : run c [.doInit, .atopDisable, .doInit] = run c [.atopDisable, .doInit] := C36_initialize_idempotent c _ (by decide)

/-- Case: pn.disable() after initialize. -/
example (c : Cfg) (o : Obj) (d n : Nat) := C36_pn_disable c [.threadDisable, .atopDisable, .doInit] rfl rfl o d n

/-- Case: np.add of int32, enabled: only pnumpy's kernel can have run. -/
example (r : Ran) (h : Runs cfgAll (run cfgAll [.doInit]) (.stub ⟨.binary, .ADD, 3⟩) r) : r = .pnumpy ⟨.binary, .ADD, 3⟩ :=
  C36_deterministic cfgAll _ _ _ _ h (.kernel _ ⟨by decide +kernel, rfl⟩)

/-- Case: initialize called twice. -/
example : (run cfgAll [.doInit, .doInit]).old ⟨.binary, .ADD, 3⟩ ≠ some (.stub ⟨.binary, .ADD, 3⟩) := C36_saved_not_own_partial _ _ _

end Pnumpy.Props
