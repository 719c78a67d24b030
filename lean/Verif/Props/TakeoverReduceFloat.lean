import Verif.Props.TakeoverReduceBits
import Verif.Spec.FloatReduction
/-
C113 for `minimum.reduce` and `maximum.reduce` over floats.  pnumpy has no kernel for them, so numpy's own loop always does the work: in one piece, or once
per block and then over the results of the blocks.
-/
namespace Pnumpy.Props
open Pnumpy.Spec Pnumpy.Elem Pnumpy.Dispatch Pnumpy.OpTables Pnumpy.Hooks Pnumpy.Takeover Pnumpy.Reduce Pnumpy.IntOps Pnumpy.Simd

/-! ### Values -/

private def vmin : Value → Value → Value
  | .nan, _ => .nan
  | _, .nan => .nan
  | .ninf, _ => .ninf
  | _, .ninf => .ninf
  | .pinf, b => b
  | a, .pinf => a
  | .fin a, .fin b => .fin (min a b)
private def vmax : Value → Value → Value
  | .nan, _ => .nan
  | _, .nan => .nan
  | .pinf, _ => .pinf
  | _, .pinf => .pinf
  | .ninf, b => b
  | a, .ninf => a
  | .fin a, .fin b => .fin (max a b)

private theorem vmin_comm : AssocComm vmin where
  assoc a b c := by cases a <;> cases b <;> cases c <;> simp [vmin, Int.min_assoc]
  comm a b := by cases a <;> cases b <;> simp [vmin, Int.min_comm]

private theorem vmax_comm : AssocComm vmax where
  assoc a b c := by cases a <;> cases b <;> cases c <;> simp [vmax, Int.max_assoc]
  comm a b := by cases a <;> cases b <;> simp [vmax, Int.max_comm]

private theorem vmin_idem (a : Value) : vmin a a = a := by cases a <;> simp [vmin]
private theorem vmax_idem (a : Value) : vmax a a = a := by cases a <;> simp [vmax]

private theorem vmin_unique {a b r : Value} (h : IsMinimum a b r) : r = vmin a b := by
  cases a <;> cases b <;> cases r <;> simp [IsMinimum, vmin, Value.lt] at h ⊢ <;> omega
private theorem vmax_unique {a b r : Value} (h : IsMaximum a b r) : r = vmax a b := by
  cases a <;> cases b <;> cases r <;> simp [IsMaximum, vmax, Value.lt] at h ⊢ <;> omega

private theorem vmin_step {a b : Value} : (vmin a b = .nan ↔ .nan = a ∨ .nan = b) ∧ (vmin a b = a ∨ vmin a b = b) ∧
    ∀ r : Value, r ≠ .nan → ¬ (vmin a b).lt r → (a ≠ .nan → b ≠ .nan → ¬ a.lt r ∧ ¬ b.lt r) := by
  refine ⟨?_, ?_, fun r => ?_⟩
  · cases a <;> cases b <;> simp [vmin]
  · cases a <;> cases b <;> simp [vmin] <;> omega
  · cases a <;> cases b <;> cases r <;> simp [vmin, Value.lt] <;> omega
private theorem vmax_step {a b : Value} : (vmax a b = .nan ↔ .nan = a ∨ .nan = b) ∧ (vmax a b = a ∨ vmax a b = b) ∧
    ∀ r : Value, r ≠ .nan → ¬ r.lt (vmax a b) → (a ≠ .nan → b ≠ .nan → ¬ r.lt a ∧ ¬ r.lt b) := by
  refine ⟨?_, ?_, fun r => ?_⟩
  · cases a <;> cases b <;> simp [vmax]
  · cases a <;> cases b <;> simp [vmax] <;> omega
  · cases a <;> cases b <;> cases r <;> simp [vmax, Value.lt] <;> omega

private theorem fold_extreme {f : Value → Value → Value} {R : Value → Value → Prop}
    (hstep : ∀ a b, (f a b = .nan ↔ .nan = a ∨ .nan = b) ∧ (f a b = a ∨ f a b = b) ∧
      ∀ r : Value, r ≠ .nan → ¬ R (f a b) r → (a ≠ .nan → b ≠ .nan → ¬ R a r ∧ ¬ R b r)) (hR : ∀ a, ¬ R a a) (xs : List Value) (init : Value) :
    if .nan ∈ init :: xs then xs.foldl f init = .nan else xs.foldl f init ∈ init :: xs ∧ ∀ v ∈ init :: xs, ¬ R v (xs.foldl f init) := by
  induction xs generalizing init with
  | nil =>
    by_cases h : Value.nan = init
    · simp [← h]
    · simp [h, hR]
  | cons x xs ih =>
    have ih := ih (f init x)
    obtain ⟨h1, h2, h3⟩ := hstep init x
    rw [List.foldl_cons]
    generalize xs.foldl f (f init x) = r at ih
    by_cases hn : Value.nan ∈ init :: x :: xs
    · rw [if_pos hn]
      rw [if_pos] at ih
      · exact ih
      · simp only [List.mem_cons] at hn ⊢
        rcases hn with h | h | h
        · exact Or.inl (h1.2 (Or.inl h)).symm
        · exact Or.inl (h1.2 (Or.inr h)).symm
        · exact Or.inr h
    · rw [if_neg hn]
      simp only [List.mem_cons, not_or] at hn
      rw [if_neg] at ih
      · obtain ⟨hm, hle⟩ := ih
        have hr : r ≠ .nan := by
          rintro rfl
          rcases List.mem_cons.1 hm with h | h
          · rcases h1.1 h.symm with e | e
            · exact hn.1 e
            · exact hn.2.1 e
          · exact hn.2.2 h
        obtain ⟨ha, hb⟩ := h3 r hr (hle _ (List.mem_cons_self ..)) (fun e => hn.1 e.symm) (fun e => hn.2.1 e.symm)
        refine ⟨?_, ?_⟩
        · rcases List.mem_cons.1 hm with h | h
          · rcases h2 with e | e
            · rw [h, e]; simp
            · rw [h, e]; simp
          · simp [h]
        · intro v hv
          rcases List.mem_cons.1 hv with rfl | hv
          · exact ha
          · rcases List.mem_cons.1 hv with rfl | hv
            · exact hb
            · exact hle v (List.mem_cons_of_mem _ hv)
      · simp only [List.mem_cons, not_or]
        exact ⟨fun e => (h1.1 e.symm).elim hn.1 hn.2.1, hn.2.2⟩

/-- All elements one and the same (stride 0): every block gives the same result. -/
theorem threadedNumpy_zero {α : Type} (op : α → α → α) (h : AssocComm op) (hid : ∀ a, op a a = a) (xs : List α) (init : α) (hn : 0 < xs.length)
    (hz : ∀ x ∈ xs, ∀ y ∈ xs, x = y) (req : Int) (mw zz : Nat) (sched : List Nat)
    (hret : (Work.exec (ufuncItem xs.length req mw zz) sched).pc 0 = .returned) :
    threadedNumpy op none 0 xs init
      (Work.kernelCalls (ufuncItem xs.length req mw zz) (Work.exec (ufuncItem xs.length req mw zz) sched)) = some (reduceSpec op init xs) := by
  have hcalls := blockCalls xs.length req mw zz sched hret
  obtain ⟨z, hz'⟩ : ∃ z, xs = List.replicate xs.length z := by
    cases xs with
    | nil => simp at hn
    | cons z xs => exact ⟨z, List.eq_replicate_iff.2 ⟨rfl, fun y hy => hz y hy z (List.mem_cons_self ..)⟩⟩
  have hrep : ∀ (z : α) k i, 0 < k → (List.replicate k z).foldl op i = op i z := by
    intro z k
    induction k with
    | zero => intro i hk; exact absurd hk (by decide)
    | succ k ih =>
      intro i _
      rw [List.replicate_succ, List.foldl_cons]
      cases k with
      | zero => rfl
      | succ k => rw [ih _ (Nat.succ_pos k), h.assoc, hid]
  have hch : 0 < chunks xs.length := by unfold chunks Work.CHUNK; omega
  have hb0 : blockPhase (fun l s => some (numpyReduce op l s)) xs init (Work.kernelCalls (ufuncItem xs.length req mw zz) (Work.exec (ufuncItem xs.length req mw zz) sched)) 0 =
      some (op init z) := by
    rw [blockPhase_all _ _ _ _ hcalls 0 hch hn]
    have : blockOf xs 0 = List.replicate (min Work.CHUNK xs.length) z := by
      unfold blockOf; rw [hz']; simp
    rw [this]
    exact congrArg some (hrep z _ _ (by unfold Work.CHUNK; omega))
  unfold threadedNumpy
  simp only [Option.getD_none]
  rw [mapM_range_some (h := fun _ => op init z)]
  · simp only
    rw [List.map_const', List.length_range]
    unfold numpyReduce reduceSpec
    rw [hrep _ _ _ hch]
    conv => rhs; rw [hz']
    rw [hrep _ _ _ hn, ← h.assoc, hid]
  · intro b hb
    rw [Int.mul_zero, if_pos ⟨by decide, by omega⟩]
    exact hb0

/-- The operation on the values, for numpy's loop. -/
private theorem extreme_op {F : FloatUnit} {fn : BinFn} (hfn : fn = .minimum ∨ fn = .maximum) {t : DT}
    (f : BitVec t.bits → BitVec t.bits → BitVec t.bits) (hf : ∀ x y, FloatResult F t x y (f x y) fn) :
    ∃ g : Value → Value → Value, AssocComm g ∧ (∀ a, g a a = a) ∧ (∀ x y, g (value t x) (value t y) = value t (f x y)) ∧
      ∀ init vals, FloatExtreme (init :: vals) (vals.foldl g init) fn := by
  rcases hfn with rfl | rfl
  · refine ⟨vmin, vmin_comm, vmin_idem, fun x y => (vmin_unique (hf x y)).symm, fun init vals => ?_⟩
    exact fold_extreme (R := Value.lt) (fun a b => vmin_step) (fun a => by cases a <;> simp [Value.lt]) vals init
  · refine ⟨vmax, vmax_comm, vmax_idem, fun x y => (vmax_unique (hf x y)).symm, fun init vals => ?_⟩
    exact fold_extreme (R := fun a b => b.lt a) (fun a b => vmax_step) (fun a => by cases a <;> simp [Value.lt]) vals init

/-- **C113**: `minimum.reduce` and `maximum.reduce` of float32 and float64, NaNs, infinities and signed zeros included: after any sequence of calls the result has
numpy's value, if the array is contiguous (or all elements are one), shorter than 65536, or threads are off. -/
theorem C113_float_extremes_partial (F : FloatUnit) (avx2 : Bool) (stop : Option Nat) (otherSel : Hook → Bool) (otherKernel : Key → Bool)
    (hist : List Call) (fn : BinFn) (hfn : fn = .minimum ∨ fn = .maximum) (d : Nat) (t : DT) (hd : elemType d = some t) (ht : t = .f32 ∨ t = .f64)
    (np : Obj → Nat → BitVec t.bits → BitVec t.bits → BitVec t.bits)
    (hnp : ∀ d', elemType d' = some t → ∀ x y, FloatResult F t x y (np (objOf fn) d' x y) fn)
    (w : World) (sr : Int) (xs : List (BitVec t.bits)) (init : BitVec t.bits) (hn : 0 < xs.length) (hz : Layed sr xs)
    (hs : sr = 1 ∨ sr = 0 ∨ xs.length < 65536 ∨ threadsNow hist = false) (r)
    (hcall : CallRed F (run (config F avx2 stop otherSel otherKernel) hist) (objOf fn) d t np w sr xs init r) :
    ∃ v, r = some v ∧ FloatExtreme (value t init :: xs.map (value t)) (value t v) fn := by
  have hserial : ∀ d', elemType d' = some t → FloatExtreme (value t init :: xs.map (value t)) (value t (numpyReduce (np (objOf fn) d') xs init)) fn := by
    intro d' hd'
    obtain ⟨g, _, _, h3, h4⟩ := extreme_op hfn _ (hnp d' hd')
    have := h4 (value t init) (xs.map (value t))
    rwa [foldl_image (value t) g _ h3] at this
  rcases red_cases hd hcall rfl with ⟨d', hd', rfl⟩ | ⟨e, o, hm, he, _⟩ | ⟨d', o, hd', hm, hbig, hthr, _, req, mw, zz, sched, hret, rfl⟩
  · exact ⟨_, rfl, hserial d' hd'⟩
  · exfalso
    rw [opOf hm] at he
    rcases hfn with rfl | rfl <;> rcases ht with rfl | rfl <;> cases he
  · obtain ⟨g, h1, h2, h3, h4⟩ := extreme_op hfn _ (hnp d' hd')
    have hstart : reduceStartVal o t t.bits = none := by
      rw [opOf hm]
      rcases hfn with rfl | rfl <;> rfl
    rw [hstart]
    have himg := threadedNumpy_image (value t) g (np (objOf fn) d') h3 none sr xs init
      (Work.kernelCalls (ufuncItem xs.length req mw zz) (Work.exec (ufuncItem xs.length req mw zz) sched))
    have hlen : (xs.map (value t)).length = xs.length := List.length_map _
    have hv : threadedNumpy g none sr (xs.map (value t)) (value t init)
        (Work.kernelCalls (ufuncItem xs.length req mw zz) (Work.exec (ufuncItem xs.length req mw zz) sched)) = some (reduceSpec g (value t init) (xs.map (value t))) := by
      rw [← hlen] at hret ⊢
      rcases hs with rfl | rfl | h | h
      · exact C09_numpy_contiguous_partial g h1 none _ _ (h2 _) (by rw [hlen]; exact hn) req mw zz sched hret
      · refine threadedNumpy_zero g h1 h2 _ _ (by rw [hlen]; exact hn) ?_ req mw zz sched hret
        intro a ha b hb
        obtain ⟨x, hx, rfl⟩ := List.mem_map.1 ha
        obtain ⟨y, hy, rfl⟩ := List.mem_map.1 hb
        rw [hz rfl x hx y hy]
      · exact absurd h (Nat.not_lt.2 hbig)
      · rw [hthr] at h; cases h
    rw [show (Option.none : Option Value) = Option.map (value t) none from rfl, himg] at hv
    obtain ⟨v, hv1, hv2⟩ := Option.map_eq_some_iff.1 hv
    exact ⟨v, hv1, by rw [hv2]; exact h4 _ _⟩

/-- C113 is false for the smallest or largest of floats that are not adjacent: with `initialize` done and threads on (another thread not just taking an item),
every such reduction of at least 65536 elements reads outside its buffer of partial results, whether pnumpy is enabled or not, whatever the elements. -/
theorem C113_float_extremes_violated (F : FloatUnit) (otherSel : Hook → Bool) (otherKernel : Key → Bool) (hist : List Call)
    (hinit : Call.doInit ∈ hist) (hthr : threadsNow hist = true) (fn : BinFn) (hfn : fn = .minimum ∨ fn = .maximum) (d : Nat) (t : DT)
    (hd : elemType d = some t) (hd' : d < 13) (ht : t = .f32 ∨ t = .f64)
    (np : Obj → Nat → BitVec t.bits → BitVec t.bits → BitVec t.bits) (w : World) (hlock : w.lockHeld = false) (sr : Int) (hsr : sr < 0 ∨ 1 < sr)
    (xs : List (BitVec t.bits)) (init : BitVec t.bits) (hn : 65536 ≤ xs.length) (r)
    (hcall : CallRed F (run (config F true none otherSel otherKernel) hist) (objOf fn) d t np w sr xs init r) : r = none := by
  obtain ⟨hi, _⟩ := run_inv (config F true none otherSel otherKernel) hist
  rw [if_pos ⟨hinit, rfl⟩] at hi
  have hset := atop_run (config F true none otherSel otherKernel) hist
  have hdm : d ∈ dtypes := by
    have : ∀ d, d < 13 → d ∈ dtypes := by decide
    exact this d hd'
  have hat : atopDT (atype d) = some t := by rw [← elem_atop _ hdm, hd]
  obtain ⟨o, hmap, hker, hred⟩ : ∃ o, (⟨.binary, objOf fn, o⟩ : Hooks.Entry) ∈ binaryMapping ∧ (∃ e, (mathOpFast F o t).func = some e) ∧ reduceOpFast F o t = none := by
    rcases hfn with rfl | rfl
    · refine ⟨.MIN, by decide, ?_, ?_⟩ <;> rcases ht with rfl | rfl <;> first | exact ⟨_, rfl⟩ | rfl
    · refine ⟨.MAX, by decide, ?_, ?_⟩ <;> rcases ht with rfl | rfl <;> first | exact ⟨_, rfl⟩ | rfl
  have hmem : ((⟨.binary, objOf fn, o⟩, d) : Hook) ∈ (config F true none otherSel otherKernel).hooks := by
    show _ ∈ allHooks.filter (selects F otherSel)
    refine List.mem_filter.2 ⟨?_, ?_⟩
    · simp only [allHooks, List.mem_append, List.mem_flatMap, List.mem_map]
      exact Or.inl (Or.inl ⟨_, Or.inl (Or.inl hmap), d, hdm, rfl⟩)
    · obtain ⟨e, hf⟩ := hker
      simp only [selects, hat]
      have := (C53_types F o t e hf).2
      rw [this]; rfl
  have hloop := hi.loops (objOf fn) d
  have hnone : ∀ k, (run (config F true none otherSel otherKernel) hist).loops (objOf fn) d = .stub k → reduceFunc F k t = none := by
    intro k hl
    rw [hl] at hloop
    split at hloop
    · rename_i h' hlast
      obtain ⟨hm, ho, hdd⟩ := lastHook_some hlast
      have hmem' := allHooks_mem h' ((hooks_sublist _).subset hm)
      have hent := bin_unique fn _ (bin_entries fn _ hmem'.1 ho).2 ⟨.binary, objOf fn, o⟩ hmap ho rfl
      cases hloop
      unfold reduceFunc Hook.key
      split
      · rw [hent]; exact hred
      · rfl
    · cases hloop
  have hitem : (worldOf (run (config F true none otherSel otherKernel) hist) w).getsItem xs.length = true := by
    have h1 : (run (config F true none otherSel otherKernel) hist).noThreading = false := by
      have := hset.2.1
      rw [hthr] at this
      simpa using this
    unfold World.getsItem
    rw [if_neg]
    · show (!w.lockHeld) = true
      rw [hlock]; rfl
    · rintro (h | h)
      · exact Nat.not_lt.2 hn h
      · rw [show (worldOf (run (config F true none otherSel otherKernel) hist) w).noThreading = false from h1] at h
        cases h
  cases hcall with
  | unhooked o' d' hl =>
    rw [hl] at hloop
    split at hloop
    · cases hloop
    · rename_i hlast
      unfold lastHook at hlast
      rw [List.find?_eq_none] at hlast
      have := hlast _ (List.mem_reverse.2 hmem)
      simp at this
  | kernelSerial k e hl hw hat he hb => rw [hnone k hl] at he; cases he
  | kernelThreaded k e hl hw hat he hb mt sched hret => rw [hnone k hl] at he; cases he
  | savedSerial k o' d' hl hw hno ho => rw [hitem] at hw; cases hw
  | savedThreaded k o' d' hl hw hno ho mt sched hret => exact C09_strided_numpy_violated _ _ sr hsr xs init hn _

/-- numpy's minimum of two floats (some implementation of it). -/
private noncomputable def npMin (t : DT) : Obj → Nat → BitVec t.bits → BitVec t.bits → BitVec t.bits :=
  fun _ _ x y => if value t x = .nan then x else if value t y = .nan then y else if (value t y).lt (value t x) then y else x

private theorem npMin_ok (F : FloatUnit) (t : DT) : ∀ d', elemType d' = some t → ∀ x y, FloatResult F t x y (npMin t (objOf .minimum) d' x y) .minimum := by
  intro d' _ x y
  show IsMinimum _ _ _
  unfold npMin
  by_cases hx : value t x = .nan
  · rw [if_pos hx]; unfold IsMinimum; rw [if_pos (Or.inl hx)]; exact hx
  · rw [if_neg hx]
    by_cases hy : value t y = .nan
    · rw [if_pos hy]; unfold IsMinimum; rw [if_pos (Or.inr hy)]; exact hy
    · rw [if_neg hy]
      generalize hu : value t x = u at hx
      generalize hv : value t y = v at hy
      split
      · rename_i h
        rw [hv]
        unfold IsMinimum
        rw [if_neg (by simp [hx, hy])]
        refine ⟨Or.inr rfl, ?_, ?_⟩ <;> revert h hx hy <;> cases u <;> cases v <;> simp [Value.lt] <;> omega
      · rename_i h
        rw [hu]
        unfold IsMinimum
        rw [if_neg (by simp [hx, hy])]
        refine ⟨Or.inl rfl, ?_, h⟩
        cases u <;> simp [Value.lt]

/-- Case: the smallest of 100000 doubles in a row, with pnumpy enabled and threads. -/
example (F : FloatUnit) (xs : List (BitVec 64)) (hx : xs.length = 100000) (w : World) :
    ∃ v, CallRed F (run (config F true none (fun _ => false) (fun _ => false)) [.atopEnable, .doInit]) (objOf .minimum) 12 .f64 (npMin .f64) w 1 xs 7 (some v) ∧
      FloatExtreme (value .f64 7 :: xs.map (value .f64)) (value .f64 v) .minimum := by
  obtain ⟨r, hr⟩ := C113_reduction_finishes F (config F true none (fun _ => false) (fun _ => false)) [.atopEnable, .doInit] .minimum 12 .f64 (npMin .f64) w 1 xs 7
  obtain ⟨v, rfl, hv⟩ := C113_float_extremes_partial F true none _ _ [.atopEnable, .doInit] .minimum (Or.inl rfl) 12 .f64 (by decide +kernel) (Or.inr rfl) (npMin .f64) (npMin_ok F .f64)
    w 1 xs 7 (lt_of_lt_of_eq (by decide) hx.symm) (by intro h; cases h) (Or.inl rfl) r hr
  exact ⟨v, hr, hv⟩

/-- Case: every second of them, or all backwards: memory outside the buffer is read. -/
example (F : FloatUnit) (xs : List (BitVec 64)) (hx : xs.length = 100000) (w : World) (hw : w.lockHeld = false) (sr : Int) (hsr : sr = 2 ∨ sr = -1) :
    CallRed F (run (config F true none (fun _ => false) (fun _ => false)) [.atopEnable, .doInit]) (objOf .minimum) 12 .f64 (npMin .f64) w sr xs 7 none := by
  obtain ⟨r, hr⟩ := C113_reduction_finishes F (config F true none (fun _ => false) (fun _ => false)) [.atopEnable, .doInit] .minimum 12 .f64 (npMin .f64) w sr xs 7
  have := C113_float_extremes_violated F _ _ [.atopEnable, .doInit] (by decide) rfl .minimum (Or.inl rfl) 12 .f64 (by decide +kernel) (by decide) (Or.inr rfl) (npMin .f64) w hw sr
    (by omega) xs 7 (le_of_le_of_eq (by decide) hx.symm) r hr
  rw [this] at hr
  exact hr

end Pnumpy.Props
