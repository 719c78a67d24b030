import Verif.Props.Takeover
import Verif.Props.Integral
/-
C113 for np.rint: two table rows name it, only one of them ever replaces its loop for a dtype that the tables know.
-/
namespace Pnumpy.Props
open Pnumpy.Spec Pnumpy.Elem Pnumpy.Dispatch Pnumpy.OpTables Pnumpy.Hooks Pnumpy.Takeover

private theorem rint_entries : ∀ e ∈ entries, e.obj = objOf1 .rint → e = ⟨.unary, objOf1 .rint, .ROUND⟩ ∨ e = ⟨.unary, objOf1 .rint, .RINT⟩ := by
  decide +kernel

private theorem hooks_sel (c : Cfg) {h : Hook} (hm : h ∈ c.hooks) : c.sel h = true := by
  unfold Cfg.hooks at hm
  cases hst : c.stop with
  | none => rw [hst] at hm; exact (List.mem_filter.1 hm).2
  | some n => rw [hst] at hm; exact (List.mem_filter.1 ((List.take_subset _ _) hm)).2

private theorem rint_once (F : FloatUnit) (avx2 : Bool) (stop : Option Nat) (otherSel : Hook → Bool) (otherKernel : Key → Bool) (t : DT) :
    ∀ h1 ∈ (config F avx2 stop otherSel otherKernel).hooks, ∀ h2 ∈ (config F avx2 stop otherSel otherKernel).hooks,
      h1.1.obj = objOf1 .rint → h2.1.obj = objOf1 .rint → atopDT (atype h1.2) = some t → h2.2 = h1.2 → h2.1 = h1.1 := by
  have key : ∀ h ∈ (config F avx2 stop otherSel otherKernel).hooks, h.1.obj = objOf1 .rint → atopDT (atype h.2) = some t →
      h.1 = ⟨.unary, objOf1 .rint, .ROUND⟩ := by
    intro h hm ho ha
    have hmem := allHooks_mem h ((hooks_sublist _).subset hm)
    rcases rint_entries _ hmem.1 ho with e | e
    · exact e
    · exfalso
      have hs : selects F otherSel h = true := hooks_sel _ hm
      unfold selects at hs
      rw [e, ha] at hs
      simp [classifies, unaryOp] at hs
  intro h1 m1 h2 m2 o1 o2 ha hd
  rw [key h1 m1 o1 ha, key h2 m2 o2 (by rw [hd]; exact ha)]

/-- **C113**: np.rint of single floats, after any sequence of calls: the nearest integer, half-way cases to even. -/
theorem C113_rint_single (F : FloatUnit) (avx2 : Bool) (stop : Option Nat) (otherSel : Hook → Bool) (otherKernel : Key → Bool)
    (hist : List Call) (d : Nat) (hd : elemType d = some .f32) (np : Obj → Nat → BitVec 32 → BitVec 32)
    (hnp : ∀ d', elemType d' = some .f32 → ∀ x, RoundsTo IsRint (floatUnit 8 23) (floatValue 8 23 x) (floatValue 8 23 (np .rint d' x)))
    (w : World) (p sp po so : Int) (n : Nat) (m : Int → BitVec 32) (hs : SafeOverlap n p sp p sp po so) (op evs)
    (hcall : Call1 F (run (config F avx2 stop otherSel otherKernel) hist) .rint d .f32 np w p sp po so n op evs) :
    ∃ m' : Int → BitVec 32, runMem (fun x _ => op x) m evs = some m' ∧
      (∀ i : Nat, i < n → RoundsTo IsRint (floatUnit 8 23) (floatValue 8 23 (m (p + sp * i))) (floatValue 8 23 (m' (po + so * i)))) ∧
      (∀ a, (∀ i : Nat, i < n → a ≠ po + so * i) → m' a = m a) := by
  rcases call1_cases_once _ F hist .rint d .f32 hd (rint_once F avx2 stop otherSel otherKernel .f32) np w p sp po so n op evs hcall with
    ⟨e, he, _⟩ | ⟨d', hd', rfl, mt, w', hx⟩
  · exfalso
    obtain ⟨op', hm, he⟩ := he
    rcases (opOf1 hm : op' = .ROUND ∨ op' = .RINT) with rfl | rfl <;> simp [unaryOp] at he
  · obtain ⟨m', h1, h2⟩ := C51_call_result .unary ⟨none, mt⟩ w' ⟨p, sp, p, sp, po, so⟩ n m (fun x _ => np .rint d' x)
      (fun x _ => np .rint d' x) ⟨by simp, by simp⟩ (Or.inl ⟨by simp, hs⟩) evs hx
    simp only [usedOp, ite_self] at h1 h2
    exact ⟨m', h1, fun i hi => by rw [h2.1 i hi]; exact hnp d' hd' _, h2.2⟩

/-- **C113**: np.rint of doubles, after any sequence of calls: right for every element while pnumpy is disabled, and for every element
that is not exactly half-way between two integers in any case.  Missing: half-way elements while enabled (`C113_rint_violated`). -/
theorem C113_rint_partial (F : FloatUnit) (hF : IeeeIntegral F 11 52 64) (avx2 : Bool) (stop : Option Nat) (otherSel : Hook → Bool)
    (otherKernel : Key → Bool) (hist : List Call) (d : Nat) (hd : elemType d = some .f64) (np : Obj → Nat → BitVec 64 → BitVec 64)
    (hnp : ∀ d', elemType d' = some .f64 → ∀ x, RoundsTo IsRint (floatUnit 11 52) (floatValue 11 52 x) (floatValue 11 52 (np .rint d' x)))
    (w : World) (p sp po so : Int) (n : Nat) (m : Int → BitVec 64) (hs : SafeOverlap n p sp p sp po so) (op evs)
    (hcall : Call1 F (run (config F avx2 stop otherSel otherKernel) hist) .rint d .f64 np w p sp po so n op evs) :
    ∃ m' : Int → BitVec 64, runMem (fun x _ => op x) m evs = some m' ∧
      (∀ i : Nat, i < n →
        (enabledNow hist = false ∨ ∀ v j : Int, floatValue 11 52 (m (p + sp * i)) = .fin v → 2 * v ≠ floatUnit 11 52 * (2 * j + 1)) →
        RoundsTo IsRint (floatUnit 11 52) (floatValue 11 52 (m (p + sp * i))) (floatValue 11 52 (m' (po + so * i)))) ∧
      (∀ a, (∀ i : Nat, i < n → a ≠ po + so * i) → m' a = m a) := by
  rcases call1_cases_once _ F hist .rint d .f64 hd (rint_once F avx2 stop otherSel otherKernel .f64) np w p sp po so n op evs hcall with
    ⟨e, he, hb, hb', rfl, hso, mt, w', hw', hon, hx⟩ | ⟨d', hd', rfl, mt, w', hx⟩
  · obtain ⟨_, _, m', h1, h2, h3, h4⟩ := C45_rint_call_partial F hF e he mt w' hw' p sp po so hso n m hs evs hx
    refine ⟨m', h1, fun i hi hc => ?_, h4⟩
    have hc' : ∀ v j : Int, floatValue 11 52 (m (p + sp * i)) = .fin v → 2 * v ≠ floatUnit 11 52 * (2 * j + 1) := by
      rcases hc with h | h
      · rw [hon] at h; cases h
      · exact h
    cases hv : floatValue 11 52 (m (p + sp * i)) with
    | fin v =>
      obtain ⟨r, hr, _, hiff⟩ := h2 i v hi hv
      exact ⟨r, hr, hiff.2 fun j hj => absurd hj (hc' v j hv)⟩
    | nan => have := h3 i hi (by rw [hv]; intro v; simp); rw [hv] at this; exact this
    | pinf => have := h3 i hi (by rw [hv]; intro v; simp); rw [hv] at this; exact this
    | ninf => have := h3 i hi (by rw [hv]; intro v; simp); rw [hv] at this; exact this
  · obtain ⟨m', h1, h2⟩ := C51_call_result .unary ⟨none, mt⟩ w' ⟨p, sp, p, sp, po, so⟩ n m (fun x _ => np .rint d' x)
      (fun x _ => np .rint d' x) ⟨by simp, by simp⟩ (Or.inl ⟨by simp, hs⟩) evs hx
    simp only [usedOp, ite_self] at h1 h2
    exact ⟨m', h1, fun i hi _ => by rw [h2.1 i hi]; exact hnp d' hd' _, h2.2⟩

/-- **C113**: a call of np.rint can always be carried out. -/
theorem C113_rint_finishes (F : FloatUnit) (avx2 : Bool) (stop : Option Nat) (otherSel : Hook → Bool) (otherKernel : Key → Bool)
    (hist : List Call) (d : Nat) (t : DT) (hd : elemType d = some t) (np : Obj → Nat → BitVec t.bits → BitVec t.bits) (w : World) (p sp po so : Int) (n : Nat) :
    ∃ op evs, Call1 F (run (config F avx2 stop otherSel otherKernel) hist) .rint d t np w p sp po so n op evs :=
  unary_finishes_once F _ hist .rint (by decide) d t hd (rint_once F avx2 stop otherSel otherKernel t) np w p sp po so n

/-- **C113**: refuted for half-way doubles after a history that leaves pnumpy enabled: 0.5, 2.5, … are rounded up, on output that is not a
single cell.  After `atop_disable` the same call is right (`C113_rint_partial`). -/
theorem C113_rint_violated (F : FloatUnit) (hF : IeeeIntegral F 11 52 64) (otherSel : Hook → Bool) (otherKernel : Key → Bool)
    (hist : List Call) (hinit : Call.doInit ∈ hist) (hon : enabledNow hist = true) (np : Obj → Nat → BitVec 64 → BitVec 64)
    (w : World) (p sp po so : Int) (hso : so ≠ 0) (n : Nat) (m : Int → BitVec 64) (hs : SafeOverlap n p sp p sp po so) (op evs)
    (hcall : Call1 F (run (config F true none otherSel otherKernel) hist) .rint 12 .f64 np w p sp po so n op evs)
    (i : Nat) (hi : i < n) (v j : Int) (hv : floatValue 11 52 (m (p + sp * i)) = .fin v)
    (hj : 2 * v = floatUnit 11 52 * (2 * j + 1)) (h0 : 0 ≤ j) (hev : j % 2 = 0) :
    ∃ m' : Int → BitVec 64, runMem (fun x _ => op x) m evs = some m' ∧
      ¬ RoundsTo IsRint (floatUnit 11 52) (floatValue 11 52 (m (p + sp * i))) (floatValue 11 52 (m' (po + so * i))) := by
  obtain ⟨hinv, _⟩ := run_inv (config F true none otherSel otherKernel) hist
  rw [if_pos ⟨hinit, rfl⟩] at hinv
  have hset := atop_run (config F true none otherSel otherKernel) hist
  have hloop := hinv.loops .rint 12
  have hdm : (12 : Nat) ∈ dtypes := by decide
  have hat : atopDT (atype 12) = some .f64 := by decide
  have hmem : ((⟨.unary, .rint, .ROUND⟩, 12) : Hook) ∈ (config F true none otherSel otherKernel).hooks := by
    show _ ∈ allHooks.filter (selects F otherSel)
    refine List.mem_filter.2 ⟨by decide +kernel, ?_⟩
    simp only [selects, hat, classifies, unaryOp]
    rfl
  split at hloop
  · rename_i h' hlast
    obtain ⟨hm, ho, hdd⟩ := lastHook_some hlast
    have hent := rint_once F true none otherSel otherKernel .f64 _ hmem h' hm rfl ho hat hdd
    have hfun : unaryFunc F h'.key .f64 = some (uslow 64 (F.round 64)) := by
      unfold unaryFunc Hook.key
      rw [if_pos ⟨by rw [hent], by rw [hdd]; exact hat⟩, hent]
      rfl
    cases hcall with
    | unhooked o' d' hl => rw [hl] at hloop; cases hloop
    | kernel k e hl he hb hb' mt evs hc hx =>
      rw [hl] at hloop
      cases hloop
      rw [hfun] at he
      cases he
      obtain ⟨_, _, m', h1, r, h2, h3⟩ := C45_rint_call_violated F hF _ ⟨.ROUND, by decide, rfl⟩ mt _
        (show (run _ hist).atop = true by rw [hset.1]; exact hon) p sp po so hso n m hs evs hx i hi v j hv hj h0 hev
      refine ⟨m', h1, ?_⟩
      rw [hv, h2]
      rintro ⟨w', hw', hr⟩
      cases hw'
      exact h3 hr
    | saved k o' d' hl hold mt evs hc hx =>
      rw [hl] at hloop
      cases hloop
      exfalso
      rw [hfun] at hc
      unfold Stub.chosen at hc
      rw [if_pos (show (worldOf (run (config F true none otherSel otherKernel) hist) w).atop = true by
        show (run _ hist).atop = true; rw [hset.1]; exact hon)] at hc
      simp [Stub.guarded, hso] at hc
  · rename_i hlast
    exfalso
    unfold lastHook at hlast
    rw [List.find?_eq_none] at hlast
    have := hlast _ (List.mem_reverse.2 hmem)
    simp at this

private theorem rint_total (u v : Int) (hu : 0 < u) : ∃ n, IsRint u v (u * n) := by
  obtain ⟨n, _, h1, h2⟩ := floor_total (2 * u) (2 * v + u) (by omega)
  rw [Int.mul_assoc] at h1 h2
  by_cases hc : 2 * (v - u * n) = -u ∧ n % 2 = 1
  · have he : u * (n - 1) = u * n - u := by rw [Int.mul_sub, Int.mul_one]
    exact ⟨n - 1, n - 1, rfl, by omega, by omega, fun _ => by omega⟩
  · exact ⟨n, n, rfl, by omega, by omega, fun _ => by omega⟩

/-- A numpy with such a rint exists. -/
private theorem numpy_rint {E M k : Nat} (h : Fmt E M k) : ∃ f : BitVec k → BitVec k, ∀ x, RoundsTo IsRint (floatUnit E M) (floatValue E M x) (floatValue E M (f x)) := by
  have hu := unit_pos E M
  have := rounding_exists h IsRint (fun v => rint_total _ v hu) (fun v w ⟨_, _, a, b, _⟩ => by omega)
  exact ⟨fun x => (this x).choose, fun x => (this x).choose_spec⟩

/-- Case: 100000 single floats in place, any content, after `someHistory`. -/
example (F : FloatUnit) (m : Int → BitVec 32) : ∃ np op evs m',
    Call1 F (run (config F true none (fun _ => true) (fun _ => true)) someHistory) .rint 11 .f32 np ⟨true, false, false, false, 3, 0⟩ 0 4 0 4 100000 op evs ∧
    runMem (fun x _ => op x) m evs = some m' ∧
    RoundsTo IsRint (floatUnit 8 23) (floatValue 8 23 (m 40)) (floatValue 8 23 (m' 40)) := by
  obtain ⟨f, hf⟩ := numpy_rint Fmt.f32
  obtain ⟨op, evs, h⟩ := C113_rint_finishes F true none (fun _ => true) (fun _ => true) someHistory 11 .f32 rfl (fun _ _ => f)
    ⟨true, false, false, false, 3, 0⟩ 0 4 0 4 100000
  obtain ⟨m', h1, h2, _⟩ := C113_rint_single F true none (fun _ => true) (fun _ => true) someHistory 11 rfl (fun _ _ => f) (fun _ _ x => hf x)
    _ 0 4 0 4 100000 m (by intro i j hi hj hne; omega) op evs h
  exact ⟨_, op, evs, m', h, h1, h2 10 (by decide)⟩

/-- Case: 100000 times 0.5 in place: right when pnumpy was disabled before the call, wrong when it was enabled. -/
example : ∃ F np op evs m' op' evs' m'',
    Call1 F (run (config F true none (fun _ => true) (fun _ => true)) [.doInit, .atopDisable]) .rint 12 .f64 np ⟨true, false, false, false, 3, 0⟩ 0 8 0 8 100000 op evs ∧
    runMem (fun x _ => op x) (fun _ => 0x3fe0000000000000#64) evs = some m' ∧
    RoundsTo IsRint (floatUnit 11 52) (floatValue 11 52 0x3fe0000000000000#64) (floatValue 11 52 (m' 80)) ∧
    Call1 F (run (config F true none (fun _ => true) (fun _ => true)) [.doInit]) .rint 12 .f64 np ⟨true, false, false, false, 3, 0⟩ 0 8 0 8 100000 op' evs' ∧
    runMem (fun x _ => op' x) (fun _ => 0x3fe0000000000000#64) evs' = some m'' ∧
    ¬ RoundsTo IsRint (floatUnit 11 52) (floatValue 11 52 0x3fe0000000000000#64) (floatValue 11 52 (m'' 80)) := by
  obtain ⟨F, _, hF⟩ := ieeeIntegral_both
  obtain ⟨f, hf⟩ := numpy_rint Fmt.f64
  obtain ⟨op, evs, h⟩ := C113_rint_finishes F true none (fun _ => true) (fun _ => true) [.doInit, .atopDisable] 12 .f64 rfl (fun _ _ => f)
    ⟨true, false, false, false, 3, 0⟩ 0 8 0 8 100000
  obtain ⟨op', evs', h'⟩ := C113_rint_finishes F true none (fun _ => true) (fun _ => true) [.doInit] 12 .f64 rfl (fun _ _ => f)
    ⟨true, false, false, false, 3, 0⟩ 0 8 0 8 100000
  have hs : SafeOverlap 100000 0 8 0 8 0 8 := by intro i j hi hj hne; omega
  obtain ⟨m', h1, h2, _⟩ := C113_rint_partial F hF true none (fun _ => true) (fun _ => true) [.doInit, .atopDisable] 12 rfl (fun _ _ => f) (fun _ _ x => hf x)
    _ 0 8 0 8 100000 (fun _ => 0x3fe0000000000000#64) hs op evs h
  obtain ⟨m'', h3, h4⟩ := C113_rint_violated F hF (fun _ => true) (fun _ => true) [.doInit] (List.mem_singleton.2 rfl) rfl (fun _ _ => f)
    _ 0 8 0 8 (by decide) 100000 (fun _ => 0x3fe0000000000000#64) hs op' evs' h' 10 (by decide) _ 0 value_half twice_half (by decide) (by decide)
  exact ⟨F, _, op, evs, m', op', evs', m'', h, h1, h2 10 (by decide) (Or.inl rfl), h', h3, h4⟩

end Pnumpy.Props
