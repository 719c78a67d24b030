import Verif.Props.Takeover
import Verif.Props.ReduceTable
/-
C113 for reductions: whatever was called before, `add.reduce`, `multiply.reduce`, `minimum.reduce`, `maximum.reduce` over integers.
-/
namespace Pnumpy.Props
open Pnumpy.Spec Pnumpy.Elem Pnumpy.Dispatch Pnumpy.OpTables Pnumpy.Hooks Pnumpy.Takeover Pnumpy.Reduce Pnumpy.IntOps Pnumpy.Simd

theorem intVal_inj {t : DT} (ht : t.isInt = true) {x y : BitVec t.bits} (h : intVal t x = intVal t y) : x = y := by
  cases t <;> simp only [DT.isInt, Bool.false_eq_true] at ht
  all_goals first
    | exact BitVec.eq_of_toInt_eq h
    | exact BitVec.eq_of_toNat_eq (Int.ofNat.inj h)

theorem wraps_unique {t : DT} (ht : t.isInt = true) {v : Int} {x y : BitVec t.bits} (hx : Wraps t v x) (hy : Wraps t v y) : x = y := by
  apply intVal_inj ht
  obtain ⟨a, ha⟩ := hx
  obtain ⟨b, hb⟩ := hy
  have hr : ∃ lo : Int, ∀ z : BitVec t.bits, lo ≤ intVal t z ∧ intVal t z < lo + 2 ^ t.bits := by
    cases t <;> simp only [DT.isInt, Bool.false_eq_true] at ht
    all_goals first
      | exact ⟨-2 ^ (DT.bits _ - 1), fun z => by
          have h1 := BitVec.le_toInt z
          have h2 := BitVec.toInt_lt (x := z)
          refine ⟨h1, lt_of_lt_of_le h2 ?_⟩
          simp only [DT.bits]; norm_num⟩
      | exact ⟨0, fun z => by
          have h2 := z.isLt
          refine ⟨Int.natCast_nonneg _, ?_⟩
          rw [Int.zero_add]
          exact lt_of_lt_of_eq (Int.ofNat_lt.2 h2) (by simp)⟩
  obtain ⟨lo, hr⟩ := hr
  have h1 := hr x
  have h2 := hr y
  rw [ha] at h1
  rw [hb] at h2
  rw [ha, hb]
  have hp : (0 : Int) < 2 ^ t.bits := by positivity
  generalize (2 : Int) ^ t.bits = P at *
  have hab : a = b := by
    have h3 : (a - b) * P < 1 * P := by nlinarith
    have h4 : (-1) * P < (a - b) * P := by nlinarith
    have h5 := lt_of_mul_lt_mul_right h3 (le_of_lt hp)
    have h6 := lt_of_mul_lt_mul_right h4 (le_of_lt hp)
    omega
  rw [hab]

/-- The four reductions of integers: what numpy's scalar operation must be, and what it folds to. -/
theorem int_reduction {fn : BinFn} (hfn : fn ∈ [BinFn.add, .multiply, .minimum, .maximum]) {t : DT} (ht : t.isInt = true) {o : Hooks.Op}
    (ho : (⟨.binary, objOf fn, o⟩ : Hooks.Entry) ∈ binaryMapping) (f : BitVec t.bits → BitVec t.bits → BitVec t.bits)
    (hf : ∀ x y, IntResult t x y (f x y) fn) :
    AssocComm f ∧ (∀ init, GoodStart f (reduceStartVal o t t.bits) init) ∧ ∀ init xs, IntReduction t init xs (reduceSpec f init xs) fn := by
  have hsome : ∃ g : BitVec t.bits → BitVec t.bits → BitVec t.bits, (∀ x y, f x y = g x y) ∧
      AssocComm g ∧ (∀ init, GoodStart g (reduceStartVal o t t.bits) init) ∧ ∀ init xs, IntReduction t init xs (reduceSpec g init xs) fn := by
    rw [opOf ho]
    simp only [List.mem_cons, List.not_mem_nil, or_false] at hfn
    rcases hfn with rfl | rfl | rfl | rfl
    · refine ⟨addOp, fun x y => wraps_unique ht (hf x y) (int_add_wraps t ht x y), assocComm_add _, fun i => BitVec.add_zero i, fun init xs => ?_⟩
      show Wraps _ _ _
      rw [← foldl_add]
      exact fold_wraps _ _ _ (fun v x y h => wraps_add h (int_add_wraps _ ht x y)) _ _ _ (wraps_self _ _)
    · refine ⟨mulOp, fun x y => wraps_unique ht (hf x y) (int_mul_wraps t ht x y), assocComm_mul _, ?_, fun init xs => ?_⟩
      · cases t <;> simp only [DT.isInt, Bool.false_eq_true] at ht <;> exact fun i => BitVec.mul_one i
      · show Wraps _ _ _
        rw [← foldl_mul]
        exact fold_wraps _ _ _ (fun v x y h => wraps_mul h (int_mul_wraps _ ht x y)) _ _ _ (wraps_self _ _)
    · cases t <;> simp only [DT.isInt, Bool.false_eq_true] at ht
      all_goals first
        | exact ⟨sminOp, fun x y => intVal_inj rfl ((hf x y).trans (sminOp_toInt x y).symm), assocComm_smin _, fun i => (smin_sel i i).elim id id,
            fun init xs => fold_min _ _ smin_sel smin_le _ _⟩
        | exact ⟨uminOp, fun x y => intVal_inj rfl ((hf x y).trans (by
            show min (x.toNat : Int) y.toNat = ((uminOp x y).toNat : Int)
            rw [uminOp_toNat]; omega)), assocComm_umin _, fun i => (umin_sel i i).elim id id,
            fun init xs => fold_min _ _ umin_sel umin_le _ _⟩
    · cases t <;> simp only [DT.isInt, Bool.false_eq_true] at ht
      all_goals first
        | exact ⟨smaxOp, fun x y => intVal_inj rfl ((hf x y).trans (smaxOp_toInt x y).symm), assocComm_smax _, fun i => (smax_sel i i).elim id id,
            fun init xs => fold_max _ _ smax_sel smax_le _ _⟩
        | exact ⟨umaxOp, fun x y => intVal_inj rfl ((hf x y).trans (by
            show max (x.toNat : Int) y.toNat = ((umaxOp x y).toNat : Int)
            rw [umaxOp_toNat]; omega)), assocComm_umax _, fun i => (umax_sel i i).elim id id,
            fun init xs => fold_max _ _ umax_sel umax_le _ _⟩
  obtain ⟨g, hg, h⟩ := hsome
  rw [show f = g from funext fun x => funext fun y => hg x y]
  exact h

/-- The elements are `sr` apart: with `sr = 0` they are one element. -/
def Layed {α : Type} (sr : Int) (xs : List α) : Prop := sr = 0 → ∀ x ∈ xs, ∀ y ∈ xs, x = y

private theorem layout_zero {sr : Int} (h : layoutOf sr = .zero) : sr = 0 := by
  unfold layoutOf at h
  split at h
  · cases h
  · split at h
    · assumption
    · cases h

/-- **C113**: reductions of integers.  After any sequence of calls, `add.reduce`, `multiply.reduce`, `minimum.reduce` and `maximum.reduce` give numpy's
result, provided that the array is contiguous, shorter than 65536, or threads are off, or pnumpy is enabled and its kernel serves the call
(otherwise see C113_reductions_violated).  (`np` is numpy's own loop, assumed to compute numpy's function.) -/
theorem C113_reductions_partial (F : FloatUnit) (avx2 : Bool) (stop : Option Nat) (otherSel : Hook → Bool) (otherKernel : Key → Bool)
    (hist : List Call) (fn : BinFn) (hfn : fn ∈ [BinFn.add, .multiply, .minimum, .maximum]) (d : Nat) (t : DT) (hd : elemType d = some t)
    (ht : t.isInt = true) (np : Obj → Nat → BitVec t.bits → BitVec t.bits → BitVec t.bits)
    (hnp : ∀ d', elemType d' = some t → ∀ x y, IntResult t x y (np (objOf fn) d' x y) fn)
    (w : World) (sr : Int) (xs : List (BitVec t.bits)) (init : BitVec t.bits) (hn : 0 < xs.length) (hz : Layed sr xs)
    (hs : sr = 1 ∨ xs.length < 65536 ∨ threadsNow hist = false ∨
      (enabledNow hist = true ∧ ∃ e start, ReduceKernel F fn t e start)) (r)
    (hcall : CallRed F (run (config F avx2 stop otherSel otherKernel) hist) (objOf fn) d t np w sr xs init r) :
    ∃ v, r = some v ∧ IntReduction t init xs v fn := by
  generalize config F avx2 stop otherSel otherKernel = c at hcall
  obtain ⟨hi, _⟩ := run_inv c hist
  have hset := atop_run c hist
  have hsub : (if Call.doInit ∈ hist ∧ c.avx2 = true then c.hooks else []).Sublist allHooks := by
    split
    · exact hooks_sublist c
    · exact List.nil_sublist _
  generalize (if Call.doInit ∈ hist ∧ c.avx2 = true then c.hooks else []) = L at hi hsub
  have hloop := hi.loops (objOf fn) d
  -- a stub in place belongs to the function and the type
  have hstub : ∀ k, (run c hist).loops (objOf fn) d = .stub k →
      ∃ h' ∈ L, h'.key = k ∧ h'.1.obj = objOf fn ∧ h'.2 = d ∧ (⟨.binary, objOf fn, k.op⟩ : Hooks.Entry) ∈ binaryMapping ∧ k.tbl = .binary ∧
        d ∈ dtypes ∧ atopDT k.atype = some t := by
    intro k hl
    rw [hl] at hloop
    split at hloop
    · rename_i h' hlast
      obtain ⟨hm, ho, hd'⟩ := lastHook_some hlast
      have hmem := allHooks_mem h' (hsub.subset hm)
      have hb' := bin_entries fn _ hmem.1 ho
      cases hloop
      refine ⟨h', hm, rfl, ho, hd', ?_, hb'.1, hd' ▸ hmem.2, ?_⟩
      · have : (⟨.binary, objOf fn, h'.1.op⟩ : Hooks.Entry) = h'.1 := by rw [← ho, ← hb'.1]
        exact this ▸ hb'.2
      · show atopDT (atype h'.2) = some t
        rw [hd', ← elem_atop _ (hd' ▸ hmem.2), hd]
    · cases hloop
  have hsaved : ∀ k o' d', (run c hist).loops (objOf fn) d = .stub k → (run c hist).old k = some (.numpy o' d') →
      o' = objOf fn ∧ elemType d' = some t := by
    intro k o' d' hl ho
    obtain ⟨h', hm, rfl, hob, hd', _, _, hdm, hat⟩ := hstub k hl
    obtain ⟨d2, hd2, hat2, hl2⟩ := saved_numpy hsub hi (single_bin fn) hm hob ho
    injection hl2 with e1 e2
    subst e1 e2
    exact ⟨rfl, by rw [elem_atop _ hd2, hat2]; exact hat⟩
  have hkern : ∀ k e, (run c hist).loops (objOf fn) d = .stub k → reduceFunc F k t = some e →
      ReduceKernel F fn t e (reduceStartVal k.op t e.bits) := by
    intro k e hl he
    obtain ⟨_, _, _, _, _, hm, htb, _, hat⟩ := hstub k hl
    unfold reduceFunc at he
    rw [if_pos ⟨htb, hat⟩] at he
    exact ⟨k.op, hm, he, rfl⟩
  have hfold : ∀ d', elemType d' = some t → IntReduction t init xs (numpyReduce (np (objOf fn) d') xs init) fn := by
    intro d' hd'
    obtain ⟨o, ho⟩ : ∃ o, (⟨.binary, objOf fn, o⟩ : Hooks.Entry) ∈ binaryMapping := by
      simp only [List.mem_cons, List.not_mem_nil, or_false] at hfn
      rcases hfn with rfl | rfl | rfl | rfl
      · exact ⟨.ADD, by decide⟩
      · exact ⟨.MUL, by decide⟩
      · exact ⟨.MIN, by decide⟩
      · exact ⟨.MAX, by decide⟩
    exact (int_reduction hfn ht ho _ (hnp d' hd')).2.2 init xs
  cases hcall with
  | unhooked o' d' hl =>
    rw [hl] at hloop
    split at hloop
    · cases hloop
    · cases hloop
      exact ⟨_, rfl, hfold d hd⟩
  | kernelSerial k e hl hw hat he hb =>
    obtain ⟨sched, hret⟩ := returns_alone xs.length 3 3 0
    obtain ⟨hb', v, h1, h2, h3⟩ := C54_integers F fn t ht e _ (hkern k e hl he) (layoutOf sr) xs init hn
      (fun h => hz (layout_zero h)) 3 3 0 sched hret
    exact ⟨v, h1, h3⟩
  | kernelThreaded k e hl hw hat he hb mt sched hret =>
    obtain ⟨hb', v, h1, h2, h3⟩ := C54_integers F fn t ht e _ (hkern k e hl he) (layoutOf sr) xs init hn
      (fun h => hz (layout_zero h)) mt _ _ sched hret
    exact ⟨v, h2, h3⟩
  | savedSerial k o' d' hl hw hno ho =>
    obtain ⟨rfl, hd'⟩ := hsaved k o' d' hl ho
    exact ⟨_, rfl, hfold d' hd'⟩
  | savedThreaded k o' d' hl hw hno ho mt sched hret =>
    obtain ⟨rfl, hd'⟩ := hsaved k o' d' hl ho
    obtain ⟨_, _, _, _, _, hm, htb, _, hat⟩ := hstub k hl
    obtain ⟨h1, h2, h3⟩ := int_reduction hfn ht hm _ (hnp d' hd')
    have hsr : sr = 1 := by
      rcases hs with h | h | h | ⟨h, e, start, o, hmo, heo, _⟩
      · exact h
      · exfalso
        unfold World.getsItem at hw
        rw [if_pos (Or.inl (show xs.length < Work.BIG from h))] at hw
        cases hw
      · exfalso
        unfold World.getsItem at hw
        rw [if_pos (Or.inr (by
          show (run c hist).noThreading = true
          have := hset.2.1
          rw [h] at this
          simpa using this))] at hw
        cases hw
      · exfalso
        rcases hno with h' | h'
        · rw [hset.1, h] at h'; cases h'
        · unfold reduceFunc at h'
          rw [if_pos ⟨htb, hat⟩, show k.op = o from congrArg Hooks.Entry.op (bin_unique fn _ hm _ hmo rfl rfl), heo] at h'
          cases h'
    subst hsr
    exact ⟨_, C09_numpy_contiguous_partial _ h1 _ xs init (h2 init) hn mt _ _ sched hret, h3 init xs⟩

/-- **C113**: a reduction can always be carried out: no saved loop it needs is missing, and the threads end. -/
theorem C113_reduction_finishes (F : FloatUnit) (c : Cfg) (hist : List Call) (fn : BinFn) (d : Nat) (t : DT)
    (np : Obj → Nat → BitVec t.bits → BitVec t.bits → BitVec t.bits) (w : World) (sr : Int) (xs : List (BitVec t.bits)) (init : BitVec t.bits) :
    ∃ r, CallRed F (run c hist) (objOf fn) d t np w sr xs init r := by
  obtain ⟨hi, _⟩ := run_inv c hist
  have hsub : (if Call.doInit ∈ hist ∧ c.avx2 = true then c.hooks else []).Sublist allHooks := by
    split
    · exact hooks_sublist c
    · exact List.nil_sublist _
  generalize (if Call.doInit ∈ hist ∧ c.avx2 = true then c.hooks else []) = L at hi hsub
  have hloop := hi.loops (objOf fn) d
  obtain ⟨sched, hret⟩ := returns_alone xs.length 3 w.maxWakeup w.zigzag
  split at hloop
  · rename_i h' hlast
    obtain ⟨hm, ho, hd⟩ := lastHook_some hlast
    obtain ⟨l, hl⟩ := Option.ne_none_iff_exists'.1 (hi.filled h' hm)
    obtain ⟨d', _, _, rfl⟩ := saved_numpy hsub hi (single_bin fn) hm ho hl
    by_cases hk : (run c hist).atop = false ∨ reduceFunc F h'.key t = none
    · cases hw : (worldOf (run c hist) w).getsItem xs.length with
      | false => exact ⟨_, .savedSerial _ _ _ hloop hw hk hl⟩
      | true => exact ⟨_, .savedThreaded _ _ _ hloop hw hk hl 3 sched hret⟩
    · have hat : (run c hist).atop = true := by
        cases h : (run c hist).atop
        · exact absurd (Or.inl h) hk
        · rfl
      obtain ⟨e, he⟩ : ∃ e, reduceFunc F h'.key t = some e := by
        cases h : reduceFunc F h'.key t
        · exact absurd (Or.inr h) hk
        · exact ⟨_, rfl⟩
      have hb : e.bits = t.bits := by
        have he' := he
        unfold reduceFunc at he'
        split at he'
        · exact (red_shape he').1
        · cases he'
      cases hw : (worldOf (run c hist) w).getsItem xs.length with
      | false => exact ⟨_, .kernelSerial _ e hloop hw hat he hb⟩
      | true => exact ⟨_, .kernelThreaded _ e hloop hw hat he hb 3 sched hret⟩
  · exact ⟨_, .unhooked _ _ hloop⟩

/-- C113 is false for reductions while pnumpy is disabled: after `initialize` has run to its end and `atop_disable` (threads on, another thread not just
taking an item), every reduction of at least 65536 elements that are not adjacent reads outside its buffer of partial results, whatever the function, the type,
the elements and the schedule. -/
theorem C113_reductions_violated (F : FloatUnit) (otherSel : Hook → Bool) (otherKernel : Key → Bool) (hist : List Call)
    (hinit : Call.doInit ∈ hist) (hoff : enabledNow hist = false) (hthr : threadsNow hist = true) (fn : BinFn) (d : Nat) (t : DT)
    (hd : elemType d = some t) (hd' : d < 13) (e : TwoFunc) (he : BinaryKernel F fn t e)
    (np : Obj → Nat → BitVec t.bits → BitVec t.bits → BitVec t.bits) (w : World) (hlock : w.lockHeld = false) (sr : Int) (hsr : sr < 0 ∨ 1 < sr)
    (xs : List (BitVec t.bits)) (init : BitVec t.bits) (hn : 65536 ≤ xs.length) (r)
    (hcall : CallRed F (run (config F true none otherSel otherKernel) hist) (objOf fn) d t np w sr xs init r) : r = none := by
  obtain ⟨hi, _⟩ := run_inv (config F true none otherSel otherKernel) hist
  rw [if_pos ⟨hinit, rfl⟩] at hi
  have hset := atop_run (config F true none otherSel otherKernel) hist
  obtain ⟨o, hmap, hf⟩ := he
  have hdm : d ∈ dtypes := by
    have : ∀ d, d < 13 → d ∈ dtypes := by decide
    exact this d hd'
  have hat : atopDT (atype d) = some t := by rw [← elem_atop _ hdm, hd]
  have hmem : ((⟨.binary, objOf fn, o⟩, d) : Hook) ∈ (config F true none otherSel otherKernel).hooks := by
    show _ ∈ allHooks.filter (selects F otherSel)
    refine List.mem_filter.2 ⟨?_, ?_⟩
    · simp only [allHooks, List.mem_append, List.mem_flatMap, List.mem_map]
      exact Or.inl (Or.inl ⟨_, Or.inl (Or.inl hmap), d, hdm, rfl⟩)
    · simp only [selects, hat]
      have := (C53_types F o t e hf).2
      rw [this]; rfl
  have hloop := hi.loops (objOf fn) d
  have hitem : (worldOf (run (config F true none otherSel otherKernel) hist) w).getsItem xs.length = true := by
    have h1 : (run (config F true none otherSel otherKernel) hist).noThreading = false := by
      have := hset.2.1
      rw [hthr] at this
      simpa using this
    unfold World.getsItem
    rw [if_neg]
    · show (!w.lockHeld) = true
      rw [hlock]; rfl
    · rintro (h | h)
      · exact Nat.not_lt.2 hn h
      · rw [show (worldOf (run (config F true none otherSel otherKernel) hist) w).noThreading = false from h1] at h
        cases h
  have hoff' : (run (config F true none otherSel otherKernel) hist).atop = false := by rw [hset.1, hoff]
  cases hcall with
  | unhooked o' d' hl =>
    rw [hl] at hloop
    split at hloop
    · cases hloop
    · rename_i hlast
      unfold lastHook at hlast
      rw [List.find?_eq_none] at hlast
      have := hlast _ (List.mem_reverse.2 hmem)
      simp at this
  | kernelSerial k e hl hw hat he hb => rw [hoff'] at hat; cases hat
  | kernelThreaded k e hl hw hat he hb mt sched hret => rw [hoff'] at hat; cases hat
  | savedSerial k o' d' hl hw hno ho => rw [hitem] at hw; cases hw
  | savedThreaded k o' d' hl hw hno ho mt sched hret => exact C09_strided_numpy_violated _ _ sr hsr xs init hn _

private def npAdd : Obj → Nat → BitVec 32 → BitVec 32 → BitVec 32 := fun _ _ => addOp

private theorem npAdd_ok : ∀ d', elemType d' = some .i32 → ∀ x y, IntResult .i32 x y (npAdd (objOf .add) d' x y) .add :=
  fun _ _ x y => int_add_wraps .i32 rfl x y

/-- Case: after `initialize`, `atop_disable`, `atop_enable`, the sum of 100000 int32 lying two apart is right, also with threads. -/
example (F : FloatUnit) (xs : List (BitVec 32)) (hx : xs.length = 100000) (w : World) :
    ∃ v, CallRed F (run (config F true none (fun _ => false) (fun _ => false)) [.atopEnable, .atopDisable, .doInit]) (objOf .add) 5 .i32 npAdd w 2 xs 7 (some v) ∧
      IntReduction .i32 7 xs v .add := by
  obtain ⟨r, hr⟩ := C113_reduction_finishes F (config F true none (fun _ => false) (fun _ => false)) [.atopEnable, .atopDisable, .doInit] .add 5 .i32 npAdd w 2 xs 7
  obtain ⟨v, rfl, hv⟩ := C113_reductions_partial F true none _ _ [.atopEnable, .atopDisable, .doInit] .add (by decide) 5 .i32 (by decide +kernel) rfl npAdd npAdd_ok w 2 xs 7
    (lt_of_lt_of_eq (by decide) hx.symm) (by intro h; cases h) (Or.inr (Or.inr (Or.inr ⟨rfl, _, _, .ADD, by decide, rfl, rfl⟩))) r hr
  exact ⟨v, hr, hv⟩

/-- Case: the same array while pnumpy is disabled. -/
example (F : FloatUnit) (xs : List (BitVec 32)) (hx : xs.length = 100000) (w : World) (hw : w.lockHeld = false) :
    CallRed F (run (config F true none (fun _ => false) (fun _ => false)) [.atopDisable, .doInit]) (objOf .add) 5 .i32 npAdd w 2 xs 7 none := by
  obtain ⟨r, hr⟩ := C113_reduction_finishes F (config F true none (fun _ => false) (fun _ => false)) [.atopDisable, .doInit] .add 5 .i32 npAdd w 2 xs 7
  have := C113_reductions_violated F _ _ [.atopDisable, .doInit] (by decide) rfl rfl .add 5 .i32 (by decide +kernel) (by decide) _ ⟨.ADD, by decide, rfl⟩ npAdd w hw 2
    (Or.inr (by decide)) xs 7 (le_of_le_of_eq (by decide) hx.symm) r hr
  rw [this] at hr
  exact hr

end Pnumpy.Props
