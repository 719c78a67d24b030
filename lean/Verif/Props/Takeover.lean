import Verif.Model.Takeover
import Verif.Props.Hooks
import Verif.Props.OpTables
import Verif.Props.UnaryTable
import Verif.Props.BoolTables
import Verif.Proofs.Hooks
/-
C113: whatever was called before — initialize, enable, disable, any number of times, in any order — a two-input function of
numpy leaves numpy's result.
-/
namespace Pnumpy.Props
open Pnumpy.Spec Pnumpy.Elem Pnumpy.Dispatch Pnumpy.OpTables Pnumpy.Hooks Pnumpy.Takeover

/-- The element type of a numpy dtype number, from numpy's kind and size of it. -/
def elemType (d : Nat) : Option DT :=
  match npyType d with
  | some (.bool, _) => some .bool
  | some (.int, 1) => some .i8 | some (.uint, 1) => some .u8 | some (.int, 2) => some .i16 | some (.uint, 2) => some .u16
  | some (.int, 4) => some .i32 | some (.uint, 4) => some .u32 | some (.int, 8) => some .i64 | some (.uint, 8) => some .u64
  | some (.float, 4) => some .f32 | some (.float, 8) => some .f64
  | _ => none

theorem elem_atop : ∀ d ∈ dtypes, elemType d = atopDT (atype d) := by decide +kernel

theorem bin_entries (fn : BinFn) : ∀ e ∈ entries, e.obj = objOf fn → e.tbl = .binary ∧ e ∈ binaryMapping := by
  cases fn <;> decide +kernel

theorem bin_unique (fn : BinFn) : ∀ e ∈ binaryMapping, ∀ e' ∈ binaryMapping, e.obj = objOf fn → e'.obj = objOf fn → e = e' := by
  cases fn <;> decide +kernel

/-- Only one operation code serves this object. -/
def Single (o : Obj) : Prop := ∀ e ∈ entries, ∀ e' ∈ entries, e.obj = o → e'.obj = o → e = e'

theorem single_bin (fn : BinFn) : Single (objOf fn) := fun e he e' he' h h' =>
  bin_unique fn e (bin_entries fn e he h).2 e' (bin_entries fn e' he' h').2 h h'

/-- The saved loop of a function whose loop for such a dtype is replaced once is numpy's own, for a dtype with the same elements. -/
theorem saved_numpy_once {L : List Hook} (hL : L.Sublist allHooks) {s : St} (hi : Inv L s) {o : Obj} {h : Hook}
    (hsing : ∀ h1 ∈ L, ∀ h2 ∈ L, h1.1.obj = o → h2.1.obj = o → atype h1.2 = atype h.2 → h2.2 = h1.2 → h2.1 = h1.1)
    (hm : h ∈ L) (ho : h.1.obj = o) {l : Loop} (hl : s.old h.key = some l) :
    ∃ d', d' ∈ dtypes ∧ atype d' = atype h.2 ∧ l = .numpy o d' := by
  obtain ⟨h1, hm1, hk1, hor⟩ := hi.old _ _ hl
  have hmem := allHooks_mem h (hL.subset hm)
  have hmem1 := allHooks_mem h1 (hL.subset hm1)
  have hobj : h1.1.obj = o := by
    rw [← ho]; exact entries_inj _ hmem1.1 _ hmem.1 (congrArg Key.tbl hk1) (congrArg Key.op hk1)
  rcases hor with rfl | ⟨h2, hm2, ho2, hd2, rfl, hr2⟩
  · exact ⟨h1.2, hmem1.2, congrArg Key.atype hk1, by rw [hobj]⟩
  · exfalso
    have e := hsing _ hm1 _ hm2 hobj (ho2.trans hobj) (congrArg Key.atype hk1) hd2
    have : h2.key = h.key := by rw [← hk1]; unfold Hook.key; rw [e, hd2]
    rw [this] at hr2
    exact Nat.lt_irrefl _ hr2

/-- The saved loop of such a function is numpy's own, for a dtype with the same elements. -/
theorem saved_numpy {L : List Hook} (hL : L.Sublist allHooks) {s : St} (hi : Inv L s) {o : Obj} (hsing : Single o) {h : Hook}
    (hm : h ∈ L) (ho : h.1.obj = o) {l : Loop} (hl : s.old h.key = some l) :
    ∃ d', d' ∈ dtypes ∧ atype d' = atype h.2 ∧ l = .numpy o d' :=
  saved_numpy_once hL hi (fun h1 m1 h2 m2 o1 o2 _ _ => hsing _ (allHooks_mem h2 (hL.subset m2)).1 _ (allHooks_mem h1 (hL.subset m1)).1 o2 o1) hm ho hl

/-- A stub that does not choose a kernel carries on as one without a kernel. -/
private theorem exec_none {st : Stub} {e : Dispatch.Entry} {A : Args} {n : Nat} {w : World} {evs : List (Nat × Acc)}
    (hc : st.chosen e w A = none) (h : Exec st e A n w evs) : Exec st ⟨none, e.maxThreads⟩ A n w evs := by
  have hn : ∀ w : World, st.chosen ⟨none, e.maxThreads⟩ w A = none := by
    intro w; unfold Stub.chosen; split
    · cases st <;> simp [Stub.guarded]
    · rfl
  induction h with
  | ledgered h _ ih => exact .ledgered h (ih hc)
  | @serial w hl h => rw [hc.trans (hn w).symm]; exact Exec.serial (st := st) (e := ⟨none, e.maxThreads⟩) hl h
  | @threaded w hl h sched hret evs hint =>
    rw [hc.trans (hn w).symm] at hint
    exact Exec.threaded (st := st) (e := ⟨none, e.maxThreads⟩) hl h sched hret evs hint

/-- What a call of a two-input function can do after a history. -/
private theorem call2_cases (c : Cfg) (F : FloatUnit) (hist : List Call) (fn : BinFn) (d : Nat) (t : DT) (ht : elemType d = some t)
    (np : Obj → Nat → BitVec t.bits → BitVec t.bits → BitVec t.bits) (w : World) (A : Args) (n : Nat) (op evs)
    (h : Call2 F (run c hist) (objOf fn) d t np w A n op evs) :
    (∃ e, BinaryKernel F fn t e ∧ ∃ hb : e.bits = t.bits, op = e.at hb ∧ ∃ mt w', w'.atop = true ∧
      (¬ (A.p1 < A.po ∧ A.po < A.p1 + 64) ∧ ¬ (A.p2 < A.po ∧ A.po < A.p2 + 64)) ∧ enabledNow hist = true ∧
      Exec .binary ⟨some e.kernel, mt⟩ A n w' evs) ∨
    (∃ d', elemType d' = some t ∧ op = np (objOf fn) d' ∧ ∃ mt w', Exec .binary ⟨none, mt⟩ A n w' evs) := by
  obtain ⟨hi, _⟩ := run_inv c hist
  have hsub : (if Call.doInit ∈ hist ∧ c.avx2 = true then c.hooks else []).Sublist allHooks := by
    split
    · exact hooks_sublist c
    · exact List.nil_sublist _
  generalize (if Call.doInit ∈ hist ∧ c.avx2 = true then c.hooks else []) = L at hi hsub
  have hloop := hi.loops (objOf fn) d
  cases h with
  | unhooked o' d' hl =>
    right
    rw [hl] at hloop
    split at hloop
    · cases hloop
    · cases hloop
      have h := Exec.serial (st := .binary) (e := ⟨none, 0⟩) (A := A) (n := n) (w := ⟨true, false, true, false, 0, 0⟩) rfl
        (by simp [World.getsItem])
      have hcn : Stub.binary.chosen ⟨none, 0⟩ ⟨true, false, true, false, 0, 0⟩ A = none := by simp [Stub.chosen, Stub.guarded]
      rw [hcn] at h
      exact ⟨d, ht, rfl, 0, _, h⟩
  | kernel k e hl he hb mt evs hc hx =>
    left
    rw [hl] at hloop
    split at hloop
    · rename_i h' hlast
      obtain ⟨hm, ho, hd⟩ := lastHook_some hlast
      have hmem := allHooks_mem h' (hsub.subset hm)
      cases hloop
      unfold binaryFunc at he
      split at he
      · refine ⟨e, ⟨h'.1.op, ?_, he⟩, hb, rfl, mt, worldOf (run c hist) w, ?_⟩
        · have hb' := bin_entries fn _ hmem.1 ho
          have : (⟨.binary, objOf fn, h'.1.op⟩ : Hooks.Entry) = h'.1 := by rw [← ho, ← hb'.1]
          rw [this]; exact hb'.2
        · unfold Stub.chosen at hc
          split at hc
          · rename_i hat
            refine ⟨hat, ?_, ?_, hx⟩
            · simp only [Stub.guarded] at hc
              split at hc
              · cases hc
              · rename_i hg
                constructor
                · exact fun x => hg (Or.inl ⟨x.1, x.2⟩)
                · exact fun x => hg (Or.inr ⟨x.1, x.2⟩)
            · rw [← (atop_run c hist).1]; exact hat
          · cases hc
      · cases he
    · cases hloop
  | saved k o' d' hl hold mt evs hc hx =>
    right
    rw [hl] at hloop
    split at hloop
    · rename_i h' hlast
      obtain ⟨hm, ho, hd⟩ := lastHook_some hlast
      have hmem := allHooks_mem h' (hsub.subset hm)
      cases hloop
      obtain ⟨d2, hd2, hat, hl2⟩ := saved_numpy hsub hi (single_bin fn) hm ho hold
      injection hl2 with e1 e2
      subst e1 e2
      refine ⟨d', ?_, rfl, mt, worldOf (run c hist) w, ?_⟩
      · rw [elem_atop _ hd2, hat, hd, ← elem_atop _ (hd ▸ hmem.2), ht]
      · exact exec_none hc hx
    · cases hloop

/-- **C113**: integers.  After any sequence of calls, with the tables pnumpy fills from its own getters, wherever `initialize`
may have stopped, in one thread or many, every call of a two-input function leaves numpy's result in every output element and
changes nothing else.  (`np` is numpy's own loop, assumed to compute numpy's function.) -/
theorem C113_integers (F : FloatUnit) (avx2 : Bool) (stop : Option Nat) (otherSel : Hook → Bool) (otherKernel : Key → Bool)
    (hist : List Call) (fn : BinFn) (d : Nat) (t : DT) (hd : elemType d = some t) (ht : t.isInt = true)
    (np : Obj → Nat → BitVec t.bits → BitVec t.bits → BitVec t.bits)
    (hnp : ∀ d', elemType d' = some t → ∀ x y, IntResult t x y (np (objOf fn) d' x y) fn)
    (w : World) (A : Args) (n : Nat) (m : Int → BitVec t.bits) (hs : SafeOverlap n A.p1 A.s1 A.p2 A.s2 A.po A.so) (op evs)
    (hcall : Call2 F (run (config F avx2 stop otherSel otherKernel) hist) (objOf fn) d t np w A n op evs) :
    ∃ m' : Int → BitVec t.bits, runMem op m evs = some m' ∧
      (∀ i : Nat, i < n → IntResult t (m (A.p1 + A.s1 * i)) (m (A.p2 + A.s2 * i)) (m' (A.po + A.so * i)) fn) ∧
      (∀ a, (∀ i : Nat, i < n → a ≠ A.po + A.so * i) → m' a = m a) := by
  rcases call2_cases _ F hist fn d t hd np w A n op evs hcall with ⟨e, he, hb, rfl, mt, w', hw', hg, _, hx⟩ | ⟨d', hd', rfl, mt, w', hx⟩
  · obtain ⟨_, h⟩ := C53_integers F fn t ht e he mt w' hw' A n m hg hs evs hx
    exact h
  · obtain ⟨m', h1, h2⟩ := C51_call_result .binary ⟨none, mt⟩ w' A n m (np (objOf fn) d') (np (objOf fn) d')
      ⟨by simp, by simp⟩ (Or.inl ⟨by simp, hs⟩) evs hx
    simp only [usedOp, ite_self] at h1 h2
    exact ⟨m', h1, fun i hi => by rw [h2.1 i hi]; exact hnp d' hd' _ _, h2.2⟩

/-- **C113**: booleans stored as numpy stores them. -/
theorem C113_booleans_partial (F : FloatUnit) (avx2 : Bool) (stop : Option Nat) (otherSel : Hook → Bool) (otherKernel : Key → Bool)
    (hist : List Call) (fn : BinFn) (np : Obj → Nat → BitVec 8 → BitVec 8 → BitVec 8)
    (hnp : ∀ d', elemType d' = some .bool → ∀ x y, ∃ r, boolFn x y fn = some r ∧ np (objOf fn) d' (boolElem x) (boolElem y) = boolElem r)
    (w : World) (A : Args) (n : Nat) (m : Int → BitVec 8) (x y : Nat → Bool)
    (hx : ∀ i : Nat, i < n → m (A.p1 + A.s1 * i) = boolElem (x i)) (hy : ∀ i : Nat, i < n → m (A.p2 + A.s2 * i) = boolElem (y i))
    (hs : SafeOverlap n A.p1 A.s1 A.p2 A.s2 A.po A.so) (op evs)
    (hcall : Call2 F (run (config F avx2 stop otherSel otherKernel) hist) (objOf fn) 0 .bool np w A n op evs) :
    ∃ m' : Int → BitVec 8, runMem op m evs = some m' ∧
      (∀ i : Nat, i < n → ∃ r, boolFn (x i) (y i) fn = some r ∧ m' (A.po + A.so * i) = boolElem r) ∧
      (∀ a, (∀ i : Nat, i < n → a ≠ A.po + A.so * i) → m' a = m a) := by
  rcases call2_cases _ F hist fn 0 .bool rfl np w A n op evs hcall with ⟨e, he, hb, rfl, mt, w', hw', hg, _, hx'⟩ | ⟨d', hd', rfl, mt, w', hx'⟩
  · obtain ⟨_, h⟩ := C53_booleans_partial F fn e he mt w' hw' A n m x y hx hy hg hs evs hx'
    exact h
  · obtain ⟨m', h1, h2⟩ := C51_call_result .binary ⟨none, mt⟩ w' A n m (np (objOf fn) d') (np (objOf fn) d')
      ⟨by simp, by simp⟩ (Or.inl ⟨by simp, hs⟩) evs hx'
    simp only [usedOp, ite_self] at h1 h2
    refine ⟨m', h1, fun i hi => ?_, h2.2⟩
    obtain ⟨r, hr, hv⟩ := hnp d' hd' (x i) (y i)
    exact ⟨r, hr, by rw [h2.1 i hi, hx i hi, hy i hi]; exact hv⟩

/-- **C113**: floats, up to the NaN defects of minimum and maximum (C43). -/
theorem C113_floats_partial (F : FloatUnit) (avx2 : Bool) (stop : Option Nat) (otherSel : Hook → Bool) (otherKernel : Key → Bool)
    (hist : List Call) (fn : BinFn) (hfn : fn ≠ .floorDivide) (d : Nat) (t : DT) (hd : elemType d = some t) (ht : t = .f32 ∨ t = .f64)
    (hF : LawfulUnit F t) (np : Obj → Nat → BitVec t.bits → BitVec t.bits → BitVec t.bits)
    (hnp : ∀ d', elemType d' = some t → ∀ x y, FloatResult F t x y (np (objOf fn) d' x y) fn)
    (w : World) (A : Args) (n : Nat) (m : Int → BitVec t.bits) (hs : SafeOverlap n A.p1 A.s1 A.p2 A.s2 A.po A.so) (op evs)
    (hcall : Call2 F (run (config F avx2 stop otherSel otherKernel) hist) (objOf fn) d t np w A n op evs) :
    ∃ m' : Int → BitVec t.bits, runMem op m evs = some m' ∧
      (∀ i : Nat, i < n → (enabledNow hist = true → (fn = .minimum ∨ fn = .maximum) → value t (m (A.p1 + A.s1 * i)) ≠ .nan) →
        FloatResult F t (m (A.p1 + A.s1 * i)) (m (A.p2 + A.s2 * i)) (m' (A.po + A.so * i)) fn) ∧
      (∀ a, (∀ i : Nat, i < n → a ≠ A.po + A.so * i) → m' a = m a) := by
  rcases call2_cases _ F hist fn d t hd np w A n op evs hcall with ⟨e, he, hb, rfl, mt, w', hw', hg, hon, hx⟩ | ⟨d', hd', rfl, mt, w', hx⟩
  · obtain ⟨_, m', h1, h2, h3⟩ := C53_floats F fn t ht hF hfn e he mt w' hw' A n m hg hs evs hx
    exact ⟨m', h1, fun i hi hn => h2 i hi (hn hon), h3⟩
  · obtain ⟨m', h1, h2⟩ := C51_call_result .binary ⟨none, mt⟩ w' A n m (np (objOf fn) d') (np (objOf fn) d')
      ⟨by simp, by simp⟩ (Or.inl ⟨by simp, hs⟩) evs hx
    simp only [usedOp, ite_self] at h1 h2
    exact ⟨m', h1, fun i hi _ => by rw [h2.1 i hi]; exact hnp d' hd' _ _, h2.2⟩

/-- **C113**: a call can always be carried out: no saved loop it needs is missing. -/
theorem C113_call_finishes (F : FloatUnit) (c : Cfg) (hist : List Call) (fn : BinFn) (d : Nat) (t : DT)
    (np : Obj → Nat → BitVec t.bits → BitVec t.bits → BitVec t.bits) (w : World) (A : Args) (n : Nat) :
    ∃ op evs, Call2 F (run c hist) (objOf fn) d t np w A n op evs := by
  obtain ⟨hi, _⟩ := run_inv c hist
  have hsub : (if Call.doInit ∈ hist ∧ c.avx2 = true then c.hooks else []).Sublist allHooks := by
    split
    · exact hooks_sublist c
    · exact List.nil_sublist _
  generalize (if Call.doInit ∈ hist ∧ c.avx2 = true then c.hooks else []) = L at hi hsub
  have hloop := hi.loops (objOf fn) d
  split at hloop
  · rename_i h' hlast
    obtain ⟨hm, ho, hd⟩ := lastHook_some hlast
    obtain ⟨evs, hx⟩ := exec_exists .binary ⟨(binaryFunc F h'.key t).map (·.kernel), 3⟩ (worldOf (run c hist) w) A n
    cases hch : Stub.binary.chosen ⟨(binaryFunc F h'.key t).map (·.kernel), 3⟩ (worldOf (run c hist) w) A with
    | none =>
      obtain ⟨l, hl⟩ := Option.ne_none_iff_exists'.1 (hi.filled h' hm)
      obtain ⟨d', _, _, rfl⟩ := saved_numpy hsub hi (single_bin fn) hm ho hl
      exact ⟨_, _, .saved _ _ _ hloop hl 3 evs hch hx⟩
    | some K =>
      cases he : binaryFunc F h'.key t with
      | none => rw [he] at hch; simp [Stub.chosen, Stub.guarded] at hch
      | some e =>
        have hb : e.bits = t.bits := by
          unfold binaryFunc at he
          split at he
          · exact (table_shape he).1
          · cases he
        rw [he] at hch hx
        exact ⟨_, _, .kernel _ e hloop he hb 3 evs (by rw [Option.map_some] at hch; rw [hch]; rfl) hx⟩
  · exact ⟨_, _, .unhooked _ _ hloop⟩

/-- **C113**: and it is pnumpy's kernel that computes, if pnumpy is enabled, `initialize` has run to its end, there is a kernel for
the function and the type, and the output does not start just after the start of an input. -/
theorem C113_enabled_uses_kernel (F : FloatUnit) (otherSel : Hook → Bool) (otherKernel : Key → Bool) (hist : List Call)
    (hinit : Call.doInit ∈ hist) (hon : enabledNow hist = true) (fn : BinFn) (d : Nat) (t : DT) (hd : elemType d = some t) (hd' : d < 13)
    (e : TwoFunc) (he : BinaryKernel F fn t e) (np : Obj → Nat → BitVec t.bits → BitVec t.bits → BitVec t.bits) (w : World) (A : Args)
    (n : Nat) (hguard : ¬ (A.p1 < A.po ∧ A.po < A.p1 + 64) ∧ ¬ (A.p2 < A.po ∧ A.po < A.p2 + 64)) (op evs)
    (hcall : Call2 F (run (config F true none otherSel otherKernel) hist) (objOf fn) d t np w A n op evs) :
    ∃ hb : e.bits = t.bits, op = e.at hb ∧ ∃ mt w', w'.atop = true ∧ w'.noThreading = !threadsNow hist ∧ Exec .binary ⟨some e.kernel, mt⟩ A n w' evs := by
  obtain ⟨hi, _⟩ := run_inv (config F true none otherSel otherKernel) hist
  rw [if_pos ⟨hinit, rfl⟩] at hi
  have hset := atop_run (config F true none otherSel otherKernel) hist
  obtain ⟨o, hmap, hf⟩ := he
  have hdm : d ∈ dtypes := by
    have : ∀ d, d < 13 → d ∈ dtypes := by decide
    exact this d hd'
  have hat : atopDT (atype d) = some t := by rw [← elem_atop _ hdm, hd]
  have hmem : ((⟨.binary, objOf fn, o⟩, d) : Hook) ∈ (config F true none otherSel otherKernel).hooks := by
    show _ ∈ allHooks.filter (selects F otherSel)
    refine List.mem_filter.2 ⟨?_, ?_⟩
    · simp only [allHooks, List.mem_append, List.mem_flatMap, List.mem_map]
      exact Or.inl (Or.inl ⟨_, Or.inl (Or.inl hmap), d, hdm, rfl⟩)
    · simp only [selects, hat]
      have := (C53_types F o t e hf).2
      rw [this]; rfl
  have hloop := hi.loops (objOf fn) d
  split at hloop
  · rename_i h' hlast
    obtain ⟨hm, ho, hdd⟩ := lastHook_some hlast
    have hm' := allHooks_mem h' ((hooks_sublist _).subset hm)
    have hent : h'.1 = ⟨.binary, objOf fn, o⟩ := bin_unique fn _ (bin_entries fn _ hm'.1 ho).2 _ hmap ho rfl
    have hfun : binaryFunc F h'.key t = some e := by
      unfold binaryFunc Hook.key
      rw [if_pos ⟨by rw [hent], by rw [hdd]; exact hat⟩, hent]; exact hf
    have hch : ∀ mt, Stub.binary.chosen ⟨some e.kernel, mt⟩ (worldOf (run (config F true none otherSel otherKernel) hist) w) A = some e.kernel := by
      intro mt
      unfold Stub.chosen
      rw [if_pos (by show (run _ hist).atop = true; rw [hset.1]; exact hon)]
      simp only [Stub.guarded]
      rw [if_neg]
      rintro (h | h)
      · exact hguard.1 ⟨h.1, h.2⟩
      · exact hguard.2 ⟨h.1, h.2⟩
    cases hcall with
    | unhooked o' d' hl => rw [hl] at hloop; cases hloop
    | kernel k e' hl he' hb mt evs hc hx =>
      rw [hl] at hloop
      cases hloop
      rw [hfun] at he'
      cases he'
      exact ⟨hb, rfl, mt, _, by show (run _ hist).atop = true; rw [hset.1]; exact hon,
        by show (run _ hist).noThreading = _; rw [← hset.2.1, Bool.not_not], hx⟩
    | saved k o' d' hl hold mt evs hc hx =>
      rw [hl] at hloop
      cases hloop
      rw [hfun, Option.map_some, hch mt] at hc
      cases hc
  · rename_i hlast
    exfalso
    unfold lastHook at hlast
    rw [List.find?_eq_none] at hlast
    have := hlast _ (List.mem_reverse.2 hmem)
    simp at this

/-! ### One-input functions -/

theorem un_entries (fn : UnFn) : ∀ e ∈ entries, e.obj = objOf1 fn → e.tbl = .unary ∧ e ∈ unaryMapping := by
  cases fn <;> decide +kernel

private theorem single_un (fn : UnFn) (hfn : fn ≠ .invert ∧ fn ≠ .rint) : Single (objOf1 fn) := by
  have key : ∀ fn : UnFn, fn ≠ .invert → fn ≠ .rint → ∀ e ∈ unaryMapping, ∀ e' ∈ unaryMapping, e.obj = objOf1 fn → e'.obj = objOf1 fn → e = e' := by
    intro fn h1 h2
    cases fn <;> first | exact absurd rfl h1 | exact absurd rfl h2 | decide +kernel
  intro e he e' he' h h'
  exact key fn hfn.1 hfn.2 e (un_entries fn e he h).2 e' (un_entries fn e' he' h').2 h h'

/-- What a call of a one-input function can do after a history, if its loop for such a dtype is replaced at most once. -/
theorem call1_cases_once (c : Cfg) (F : FloatUnit) (hist : List Call) (fn : UnFn) (d : Nat) (t : DT) (ht : elemType d = some t)
    (hsing : ∀ h1 ∈ c.hooks, ∀ h2 ∈ c.hooks, h1.1.obj = objOf1 fn → h2.1.obj = objOf1 fn → atopDT (atype h1.2) = some t → h2.2 = h1.2 → h2.1 = h1.1)
    (np : Obj → Nat → BitVec t.bits → BitVec t.bits) (w : World) (p sp po so : Int) (n : Nat) (op evs)
    (h : Call1 F (run c hist) (objOf1 fn) d t np w p sp po so n op evs) :
    (∃ e, UnaryKernel F fn t e ∧ ∃ (hb : e.inBits = t.bits) (hb' : e.outBits = t.bits), op = e.at hb hb' ∧ so ≠ 0 ∧ ∃ mt w', w'.atop = true ∧
      enabledNow hist = true ∧ Exec .unary ⟨some e.kernel, mt⟩ ⟨p, sp, p, sp, po, so⟩ n w' evs) ∨
    (∃ d', elemType d' = some t ∧ op = np (objOf1 fn) d' ∧ ∃ mt w', Exec .unary ⟨none, mt⟩ ⟨p, sp, p, sp, po, so⟩ n w' evs) := by
  obtain ⟨hi, _⟩ := run_inv c hist
  have hsub' : (if Call.doInit ∈ hist ∧ c.avx2 = true then c.hooks else []) ⊆ c.hooks := by
    split
    · exact List.Subset.refl _
    · exact List.nil_subset _
  have hsub : (if Call.doInit ∈ hist ∧ c.avx2 = true then c.hooks else []).Sublist allHooks := by
    split
    · exact hooks_sublist c
    · exact List.nil_sublist _
  generalize (if Call.doInit ∈ hist ∧ c.avx2 = true then c.hooks else []) = L at hi hsub hsub'
  have hloop := hi.loops (objOf1 fn) d
  cases h with
  | unhooked o' d' hl =>
    right
    rw [hl] at hloop
    split at hloop
    · cases hloop
    · cases hloop
      have h := Exec.serial (st := .unary) (e := ⟨none, 0⟩) (A := ⟨p, sp, p, sp, po, so⟩) (n := n) (w := ⟨true, false, true, false, 0, 0⟩) rfl
        (by simp [World.getsItem])
      have hcn : Stub.unary.chosen ⟨none, 0⟩ ⟨true, false, true, false, 0, 0⟩ ⟨p, sp, p, sp, po, so⟩ = none := by simp [Stub.chosen, Stub.guarded]
      rw [hcn] at h
      exact ⟨d, ht, rfl, 0, _, h⟩
  | kernel k e hl he hb hb' mt evs hc hx =>
    left
    rw [hl] at hloop
    split at hloop
    · rename_i h' hlast
      obtain ⟨hm, ho, hd⟩ := lastHook_some hlast
      have hmem := allHooks_mem h' (hsub.subset hm)
      cases hloop
      unfold unaryFunc at he
      split at he
      · have hbm := un_entries fn _ hmem.1 ho
        have hent : (⟨.unary, objOf1 fn, h'.1.op⟩ : Hooks.Entry) = h'.1 := by rw [← ho, ← hbm.1]
        unfold Stub.chosen at hc
        split at hc
        · rename_i hat
          simp only [Stub.guarded] at hc
          split at hc
          · cases hc
          · rename_i hso
            exact ⟨e, ⟨h'.1.op, by rw [hent]; exact hbm.2, he⟩, hb, hb', rfl, hso, mt, worldOf (run c hist) w, hat,
              by rw [← (atop_run c hist).1]; exact hat, hx⟩
        · cases hc
      · cases he
    · cases hloop
  | saved k o' d' hl hold mt evs hc hx =>
    right
    rw [hl] at hloop
    split at hloop
    · rename_i h' hlast
      obtain ⟨hm, ho, hd⟩ := lastHook_some hlast
      have hmem := allHooks_mem h' (hsub.subset hm)
      cases hloop
      obtain ⟨d2, hd2, hat, hl2⟩ := saved_numpy_once hsub hi
        (fun h1 m1 h2 m2 o1 o2 ha hdd => hsing h1 (hsub' m1) h2 (hsub' m2) o1 o2 (by rw [ha, hd, ← elem_atop _ (hd ▸ hmem.2), ht]) hdd) hm ho hold
      injection hl2 with e1 e2
      subst e1 e2
      refine ⟨d', ?_, rfl, mt, worldOf (run c hist) w, exec_none hc hx⟩
      rw [elem_atop _ hd2, hat, hd, ← elem_atop _ (hd ▸ hmem.2), ht]
    · cases hloop

private theorem call1_cases (c : Cfg) (F : FloatUnit) (hist : List Call) (fn : UnFn) (hfn : fn ≠ .invert ∧ fn ≠ .rint) (d : Nat) (t : DT)
    (ht : elemType d = some t) (np : Obj → Nat → BitVec t.bits → BitVec t.bits) (w : World) (p sp po so : Int) (n : Nat) (op evs)
    (h : Call1 F (run c hist) (objOf1 fn) d t np w p sp po so n op evs) :
    (∃ e, UnaryKernel F fn t e ∧ ∃ (hb : e.inBits = t.bits) (hb' : e.outBits = t.bits), op = e.at hb hb' ∧ so ≠ 0 ∧ ∃ mt w', w'.atop = true ∧
      enabledNow hist = true ∧ Exec .unary ⟨some e.kernel, mt⟩ ⟨p, sp, p, sp, po, so⟩ n w' evs) ∨
    (∃ d', elemType d' = some t ∧ op = np (objOf1 fn) d' ∧ ∃ mt w', Exec .unary ⟨none, mt⟩ ⟨p, sp, p, sp, po, so⟩ n w' evs) :=
  call1_cases_once c F hist fn d t ht (fun h1 m1 h2 m2 o1 o2 _ _ => single_un fn hfn _ (allHooks_mem h2 ((hooks_sublist c).subset m2)).1 _
    (allHooks_mem h1 ((hooks_sublist c).subset m1)).1 o2 o1) np w p sp po so n op evs h

/-- **C113**: absolute, sign and negative of integers, after any sequence of calls. -/
theorem C113_unary_integers (F : FloatUnit) (avx2 : Bool) (stop : Option Nat) (otherSel : Hook → Bool) (otherKernel : Key → Bool)
    (hist : List Call) (fn : UnFn) (hfn : fn ∈ [UnFn.absolute, .sign, .negative]) (d : Nat) (t : DT) (hd : elemType d = some t) (ht : t.isInt = true)
    (np : Obj → Nat → BitVec t.bits → BitVec t.bits) (hnp : ∀ d', elemType d' = some t → ∀ x, IntResult1 t x (np (objOf1 fn) d' x) fn)
    (w : World) (p sp po so : Int) (n : Nat) (m : Int → BitVec t.bits) (hs : SafeOverlap n p sp p sp po so) (op evs)
    (hcall : Call1 F (run (config F avx2 stop otherSel otherKernel) hist) (objOf1 fn) d t np w p sp po so n op evs) :
    ∃ m' : Int → BitVec t.bits, runMem (fun x _ => op x) m evs = some m' ∧
      (∀ i : Nat, i < n → IntResult1 t (m (p + sp * i)) (m' (po + so * i)) fn) ∧
      (∀ a, (∀ i : Nat, i < n → a ≠ po + so * i) → m' a = m a) := by
  have hne : fn ≠ .invert ∧ fn ≠ .rint ∧ fn ≠ .logicalNot := by revert hfn; cases fn <;> decide
  rcases call1_cases _ F hist fn ⟨hne.1, hne.2.1⟩ d t hd np w p sp po so n op evs hcall with
    ⟨e, he, hb, hb', rfl, hso, mt, w', hw', _, hx⟩ | ⟨d', hd', rfl, mt, w', hx⟩
  · obtain ⟨_, _, h⟩ := C55_integers F fn hne.2.2 t ht e he mt w' hw' p sp po so hso n m hs evs hx
    exact h
  · obtain ⟨m', h1, h2⟩ := C51_call_result .unary ⟨none, mt⟩ w' ⟨p, sp, p, sp, po, so⟩ n m (fun x _ => np (objOf1 fn) d' x)
      (fun x _ => np (objOf1 fn) d' x) ⟨by simp, by simp⟩ (Or.inl ⟨by simp, hs⟩) evs hx
    simp only [usedOp, ite_self] at h1 h2
    exact ⟨m', h1, fun i hi => by rw [h2.1 i hi]; exact hnp d' hd' _, h2.2⟩

/-- **C113**: floor, ceil, trunc, sqrt and sign of floats, after any sequence of calls. -/
theorem C113_unary_floats (F : FloatUnit) (avx2 : Bool) (stop : Option Nat) (otherSel : Hook → Bool) (otherKernel : Key → Bool)
    (hist : List Call) (fn : UnFn) (hfn : fn ∈ [UnFn.floor, .ceil, .trunc, .sqrt, .sign]) (d : Nat) (t : DT) (hd : elemType d = some t)
    (ht : t = .f32 ∨ t = .f64) (np : Obj → Nat → BitVec t.bits → BitVec t.bits)
    (hnp : ∀ d', elemType d' = some t → ∀ x, FloatResult1 F t x (np (objOf1 fn) d' x) fn)
    (w : World) (p sp po so : Int) (n : Nat) (m : Int → BitVec t.bits) (hs : SafeOverlap n p sp p sp po so) (op evs)
    (hcall : Call1 F (run (config F avx2 stop otherSel otherKernel) hist) (objOf1 fn) d t np w p sp po so n op evs) :
    ∃ m' : Int → BitVec t.bits, runMem (fun x _ => op x) m evs = some m' ∧
      (∀ i : Nat, i < n → FloatResult1 F t (m (p + sp * i)) (m' (po + so * i)) fn) ∧
      (∀ a, (∀ i : Nat, i < n → a ≠ po + so * i) → m' a = m a) := by
  have hne : fn ≠ .invert ∧ fn ≠ .rint := by revert hfn; cases fn <;> decide
  rcases call1_cases _ F hist fn hne d t hd np w p sp po so n op evs hcall with
    ⟨e, he, hb, hb', rfl, hso, mt, w', hw', _, hx⟩ | ⟨d', hd', rfl, mt, w', hx⟩
  · obtain ⟨_, _, h⟩ := C55_floats F fn hfn t ht e he mt w' hw' p sp po so hso n m hs evs hx
    exact h
  · obtain ⟨m', h1, h2⟩ := C51_call_result .unary ⟨none, mt⟩ w' ⟨p, sp, p, sp, po, so⟩ n m (fun x _ => np (objOf1 fn) d' x)
      (fun x _ => np (objOf1 fn) d' x) ⟨by simp, by simp⟩ (Or.inl ⟨by simp, hs⟩) evs hx
    simp only [usedOp, ite_self] at h1 h2
    exact ⟨m', h1, fun i hi => by rw [h2.1 i hi]; exact hnp d' hd' _, h2.2⟩

/-- Such a call can always be carried out, if the loop for such a dtype is replaced at most once. -/
theorem unary_finishes_once (F : FloatUnit) (c : Cfg) (hist : List Call) (fn : UnFn) (hfn : fn ≠ .logicalNot) (d : Nat) (t : DT) (ht : elemType d = some t)
    (hsing : ∀ h1 ∈ c.hooks, ∀ h2 ∈ c.hooks, h1.1.obj = objOf1 fn → h2.1.obj = objOf1 fn → atopDT (atype h1.2) = some t → h2.2 = h1.2 → h2.1 = h1.1)
    (np : Obj → Nat → BitVec t.bits → BitVec t.bits) (w : World) (p sp po so : Int) (n : Nat) :
    ∃ op evs, Call1 F (run c hist) (objOf1 fn) d t np w p sp po so n op evs := by
  obtain ⟨hi, _⟩ := run_inv c hist
  have hsub' : (if Call.doInit ∈ hist ∧ c.avx2 = true then c.hooks else []) ⊆ c.hooks := by
    split
    · exact List.Subset.refl _
    · exact List.nil_subset _
  have hsub : (if Call.doInit ∈ hist ∧ c.avx2 = true then c.hooks else []).Sublist allHooks := by
    split
    · exact hooks_sublist c
    · exact List.nil_sublist _
  generalize (if Call.doInit ∈ hist ∧ c.avx2 = true then c.hooks else []) = L at hi hsub hsub'
  have hloop := hi.loops (objOf1 fn) d
  split at hloop
  · rename_i h' hlast
    obtain ⟨hm, ho, hd⟩ := lastHook_some hlast
    have hbm := un_entries fn _ (allHooks_mem h' (hsub.subset hm)).1 ho
    obtain ⟨evs, hx⟩ := exec_exists .unary ⟨(unaryFunc F h'.key t).map (·.kernel), 3⟩ (worldOf (run c hist) w) ⟨p, sp, p, sp, po, so⟩ n
    cases hch : Stub.unary.chosen ⟨(unaryFunc F h'.key t).map (·.kernel), 3⟩ (worldOf (run c hist) w) ⟨p, sp, p, sp, po, so⟩ with
    | none =>
      obtain ⟨l, hl⟩ := Option.ne_none_iff_exists'.1 (hi.filled h' hm)
      obtain ⟨d', _, _, rfl⟩ := saved_numpy_once hsub hi
        (fun h1 m1 h2 m2 o1 o2 ha hdd => hsing h1 (hsub' m1) h2 (hsub' m2) o1 o2
          (by rw [ha, hd, ← elem_atop _ (hd ▸ (allHooks_mem h' (hsub.subset hm)).2), ht]) hdd) hm ho hl
      exact ⟨_, _, .saved _ _ _ hloop hl 3 evs hch hx⟩
    | some K =>
      cases he : unaryFunc F h'.key t with
      | none => rw [he] at hch; simp [Stub.chosen, Stub.guarded] at hch
      | some e =>
        have hb : e.inBits = t.bits ∧ e.outBits = t.bits := by
          unfold unaryFunc at he
          split at he
          · obtain ⟨h1, _, _, _, h5⟩ := un_shape he
            refine ⟨h1, ?_⟩
            rw [if_neg] at h5
            · exact h5
            · intro hop
              have hent : (⟨.unary, objOf1 fn, h'.1.op⟩ : Hooks.Entry) = h'.1 := by rw [← ho, ← hbm.1]
              have hm2 : (⟨.unary, objOf1 fn, h'.1.op⟩ : Hooks.Entry) ∈ unaryMapping := by rw [hent]; exact hbm.2
              rw [show h'.1.op = .LOGICAL_NOT from hop] at hm2
              have hno : ∀ fn : UnFn, (⟨.unary, objOf1 fn, .LOGICAL_NOT⟩ : Hooks.Entry) ∈ unaryMapping → fn = .logicalNot := by
                intro fn; cases fn <;> decide +kernel
              exact hfn (hno fn hm2)
          · cases he
        rw [he] at hch hx
        exact ⟨_, _, .kernel _ e hloop he hb.1 hb.2 3 evs (by rw [Option.map_some] at hch; rw [hch]; rfl) hx⟩
  · exact ⟨_, _, .unhooked _ _ hloop⟩

/-- **C113**: such a call can always be carried out. -/
theorem C113_unary_call_finishes (F : FloatUnit) (c : Cfg) (hist : List Call) (fn : UnFn)
    (hfn : fn ≠ .invert ∧ fn ≠ .rint ∧ fn ≠ .logicalNot) (d : Nat) (t : DT) (ht : elemType d = some t)
    (np : Obj → Nat → BitVec t.bits → BitVec t.bits) (w : World) (p sp po so : Int) (n : Nat) :
    ∃ op evs, Call1 F (run c hist) (objOf1 fn) d t np w p sp po so n op evs := by
  exact unary_finishes_once F c hist fn hfn.2.2 d t ht (fun h1 m1 h2 m2 o1 o2 _ _ => single_un fn ⟨hfn.1, hfn.2.1⟩ _ (allHooks_mem h2 ((hooks_sublist c).subset m2)).1 _
    (allHooks_mem h1 ((hooks_sublist c).subset m1)).1 o2 o1) np w p sp po so n

/-! ### Comparisons -/

private theorem cmp_entries (fn : CmpOp) : ∀ e ∈ entries, e.obj = objOfCmp fn → e.tbl = .compare ∧ e ∈ compareMapping := by
  cases fn <;> decide +kernel

private theorem single_cmp (fn : CmpOp) : Single (objOfCmp fn) := by
  have key : ∀ fn : CmpOp, ∀ e ∈ compareMapping, ∀ e' ∈ compareMapping, e.obj = objOfCmp fn → e'.obj = objOfCmp fn → e = e' := by
    intro fn; cases fn <;> decide +kernel
  intro e he e' he' h h'
  exact key fn e (cmp_entries fn e he h).2 e' (cmp_entries fn e' he' h').2 h h'

private theorem storedByte_cmpCell (t : DT) (c : CmpOp) : storedByte t c = cmpCell t c := by
  funext a b
  unfold storedByte cmpCell
  cases Compare.dispatch t c <;> rfl

/-- **C113**: comparisons, after any sequence of calls.  (Elements of one byte: the output must not overlap an input.) -/
theorem C113_comparisons (F : FloatUnit) (avx2 : Bool) (stop : Option Nat) (otherSel : Hook → Bool) (otherKernel : Key → Bool)
    (hist : List Call) (fn : CmpOp) (d : Nat) (t : DT) (hd : elemType d = some t) (np : Obj → Nat → Nat → Nat → Nat)
    (hnp : ∀ d', elemType d' = some t → ∀ x y : BitVec t.bits,
      np (objOfCmp fn) d' x.toNat y.toNat = if fn.holds (value t x) (value t y) then 1 else 0)
    (w : World) (A : Args) (n : Nat) (m : Int → Nat) (x y : Nat → BitVec t.bits)
    (hx : ∀ i : Nat, i < n → m (A.p1 + A.s1 * i) = (x i).toNat) (hy : ∀ i : Nat, i < n → m (A.p2 + A.s2 * i) = (y i).toNat)
    (hs : t.bits ≠ 8 ∧ SafeOverlap n A.p1 A.s1 A.p2 A.s2 A.po A.so ∨ NoOverlap n A.p1 A.s1 A.p2 A.s2 A.po A.so) (op evs)
    (hcall : CallCmp (run (config F avx2 stop otherSel otherKernel) hist) (objOfCmp fn) d t np w A n op evs) :
    ∃ m' : Int → Nat, runMem op m evs = some m' ∧
      (∀ i : Nat, i < n → m' (A.po + A.so * i) = if fn.holds (value t (x i)) (value t (y i)) then 1 else 0) ∧
      (∀ a, (∀ i : Nat, i < n → a ≠ A.po + A.so * i) → m' a = m a) := by
  generalize config F avx2 stop otherSel otherKernel = c at hcall
  obtain ⟨hi, _⟩ := run_inv c hist
  have hsub : (if Call.doInit ∈ hist ∧ c.avx2 = true then c.hooks else []).Sublist allHooks := by
    split
    · exact hooks_sublist c
    · exact List.nil_sublist _
  generalize (if Call.doInit ∈ hist ∧ c.avx2 = true then c.hooks else []) = L at hi hsub
  have hloop := hi.loops (objOfCmp fn) d
  -- numpy's own loop, for a dtype with the same elements
  have old : ∀ d', elemType d' = some t → ∀ mt w', Exec .compare ⟨none, mt⟩ A n w' evs →
      ∃ m' : Int → Nat, runMem (np (objOfCmp fn) d') m evs = some m' ∧
      (∀ i : Nat, i < n → m' (A.po + A.so * i) = if fn.holds (value t (x i)) (value t (y i)) then 1 else 0) ∧
      (∀ a, (∀ i : Nat, i < n → a ≠ A.po + A.so * i) → m' a = m a) := by
    intro d' hd' mt w' hx'
    obtain ⟨m', h1, h2⟩ := C51_call_result .compare ⟨none, mt⟩ w' A n m (np (objOfCmp fn) d') (np (objOfCmp fn) d')
      ⟨by simp, by simp⟩ (hs.imp (fun h => ⟨by simp, h.2⟩) id) evs hx'
    simp only [usedOp, ite_self] at h1 h2
    exact ⟨m', h1, fun i hi => by rw [h2.1 i hi, hx i hi, hy i hi]; exact hnp d' hd' _ _, h2.2⟩
  cases hcall with
  | unhooked o' d' hl =>
    rw [hl] at hloop
    split at hloop
    · cases hloop
    · cases hloop
      have h := Exec.serial (st := .compare) (e := ⟨none, 0⟩) (A := A) (n := n) (w := ⟨true, false, true, false, 0, 0⟩) rfl
        (by simp [World.getsItem])
      have hcn : Stub.compare.chosen ⟨none, 0⟩ ⟨true, false, true, false, 0, 0⟩ A = none := by simp [Stub.chosen, Stub.guarded]
      rw [hcn] at h
      exact old d hd 0 _ h
  | kernel k c' hl he mt _ hc hx' =>
    rw [hl] at hloop
    split at hloop
    · rename_i h' hlast
      obtain ⟨hm, ho, hdd⟩ := lastHook_some hlast
      have hmem := allHooks_mem h' (hsub.subset hm)
      cases hloop
      unfold compareFunc at he
      split at he
      · have hbm := cmp_entries fn _ hmem.1 ho
        have hent : (⟨.compare, objOfCmp fn, h'.1.op⟩ : Hooks.Entry) = h'.1 := by rw [← ho, ← hbm.1]
        have hat : (worldOf (run c hist) w).atop = true := by
          unfold Stub.chosen at hc
          split at hc
          · assumption
          · cases hc
        have hck : CompareKernel fn t c' (BoolTables.cmpTemplate t c') := ⟨h'.1.op, by rw [hent]; exact hbm.2, he, rfl⟩
        rw [storedByte_cmpCell]
        refine C57_compare fn c' t _ hck mt _ hat A n m x y hx hy (hs.imp (fun h => ⟨?_, h.2⟩) id) evs hx'
        have h8 := h.1
        clear * - h8
        cases t <;> cases c' <;> first | exact absurd rfl h8 | simp [BoolTables.cmpTemplate]
      · cases he
    · cases hloop
  | saved k o' d' hl hold mt _ hc hx' =>
    rw [hl] at hloop
    split at hloop
    · rename_i h' hlast
      obtain ⟨hm, ho, hdd⟩ := lastHook_some hlast
      have hmem := allHooks_mem h' (hsub.subset hm)
      cases hloop
      obtain ⟨d2, hd2, hat, hl2⟩ := saved_numpy hsub hi (single_cmp fn) hm ho hold
      injection hl2 with e1 e2
      subst e1 e2
      exact old d' (by rw [elem_atop _ hd2, hat, hdd, ← elem_atop _ (hdd ▸ hmem.2), hd]) mt _ (exec_none hc hx')
    · cases hloop

/-- **C113**: such a call can always be carried out. -/
theorem C113_comparison_finishes (c : Cfg) (hist : List Call) (fn : CmpOp) (d : Nat) (t : DT) (np : Obj → Nat → Nat → Nat → Nat)
    (w : World) (A : Args) (n : Nat) : ∃ op evs, CallCmp (run c hist) (objOfCmp fn) d t np w A n op evs := by
  obtain ⟨hi, _⟩ := run_inv c hist
  have hsub : (if Call.doInit ∈ hist ∧ c.avx2 = true then c.hooks else []).Sublist allHooks := by
    split
    · exact hooks_sublist c
    · exact List.nil_sublist _
  generalize (if Call.doInit ∈ hist ∧ c.avx2 = true then c.hooks else []) = L at hi hsub
  have hloop := hi.loops (objOfCmp fn) d
  split at hloop
  · rename_i h' hlast
    obtain ⟨hm, ho, hdd⟩ := lastHook_some hlast
    obtain ⟨evs, hx⟩ := exec_exists .compare ⟨(compareFunc h'.key t).map (BoolTables.cmpTemplate t), 3⟩ (worldOf (run c hist) w) A n
    cases hch : Stub.compare.chosen ⟨(compareFunc h'.key t).map (BoolTables.cmpTemplate t), 3⟩ (worldOf (run c hist) w) A with
    | none =>
      obtain ⟨l, hl⟩ := Option.ne_none_iff_exists'.1 (hi.filled h' hm)
      obtain ⟨d', _, _, rfl⟩ := saved_numpy hsub hi (single_cmp fn) hm ho hl
      exact ⟨_, _, .saved _ _ _ hloop hl 3 evs hch hx⟩
    | some K =>
      cases he : compareFunc h'.key t with
      | none => rw [he] at hch; simp [Stub.chosen, Stub.guarded] at hch
      | some e =>
        rw [he] at hch hx
        exact ⟨_, _, .kernel _ e hloop he 3 evs (by rw [Option.map_some] at hch; rw [hch]; rfl) hx⟩
  · exact ⟨_, _, .unhooked _ _ hloop⟩

/-! ### logical_not -/

/-- **C113**: logical_not, after any sequence of calls.  (The output must not overlap the input.) -/
theorem C113_logical_not (F : FloatUnit) (avx2 : Bool) (stop : Option Nat) (otherSel : Hook → Bool) (otherKernel : Key → Bool)
    (hist : List Call) (d : Nat) (t : DT) (hd : elemType d = some t) (np : Obj → Nat → Nat → Nat)
    (hnp : ∀ d', elemType d' = some t → ∀ x : BitVec t.bits, np .logicalNot d' x.toNat = if value t x = .fin 0 then 1 else 0)
    (w : World) (p sp po so : Int) (n : Nat) (m : Int → Nat) (x : Nat → BitVec t.bits)
    (hx : ∀ i : Nat, i < n → m (p + sp * i) = (x i).toNat) (hs : NoOverlap n p sp p sp po so) (op evs)
    (hcall : CallNot F (run (config F avx2 stop otherSel otherKernel) hist) .logicalNot d t np w p sp po so n op evs) :
    ∃ m' : Int → Nat, runMem (fun a _ => op a) m evs = some m' ∧
      (∀ i : Nat, i < n → m' (po + so * i) = if value t (x i) = .fin 0 then 1 else 0) ∧
      (∀ a, (∀ i : Nat, i < n → a ≠ po + so * i) → m' a = m a) := by
  generalize config F avx2 stop otherSel otherKernel = c at hcall
  obtain ⟨hi, _⟩ := run_inv c hist
  have hsub : (if Call.doInit ∈ hist ∧ c.avx2 = true then c.hooks else []).Sublist allHooks := by
    split
    · exact hooks_sublist c
    · exact List.nil_sublist _
  generalize (if Call.doInit ∈ hist ∧ c.avx2 = true then c.hooks else []) = L at hi hsub
  have hloop := hi.loops .logicalNot d
  have hent := un_entries .logicalNot
  have hsing := single_un .logicalNot (by decide)
  rw [show objOf1 .logicalNot = Obj.logicalNot from rfl] at hent hsing
  have old : ∀ d', elemType d' = some t → ∀ mt w', Exec .unary ⟨none, mt⟩ ⟨p, sp, p, sp, po, so⟩ n w' evs →
      ∃ m' : Int → Nat, runMem (fun a _ => np .logicalNot d' a) m evs = some m' ∧
      (∀ i : Nat, i < n → m' (po + so * i) = if value t (x i) = .fin 0 then 1 else 0) ∧
      (∀ a, (∀ i : Nat, i < n → a ≠ po + so * i) → m' a = m a) := by
    intro d' hd' mt w' hx'
    obtain ⟨m', h1, h2⟩ := C51_call_result .unary ⟨none, mt⟩ w' ⟨p, sp, p, sp, po, so⟩ n m (fun a _ => np .logicalNot d' a) (fun a _ => np .logicalNot d' a)
      ⟨by simp, by simp⟩ (Or.inr hs) evs hx'
    simp only [usedOp, ite_self] at h1 h2
    exact ⟨m', h1, fun i hi => by rw [h2.1 i hi, hx i hi]; exact hnp d' hd' _, h2.2⟩
  cases hcall with
  | unhooked o' d' hl =>
    rw [hl] at hloop
    split at hloop
    · cases hloop
    · cases hloop
      have h := Exec.serial (st := .unary) (e := ⟨none, 0⟩) (A := ⟨p, sp, p, sp, po, so⟩) (n := n) (w := ⟨true, false, true, false, 0, 0⟩) rfl
        (by simp [World.getsItem])
      have hcn : Stub.unary.chosen ⟨none, 0⟩ ⟨true, false, true, false, 0, 0⟩ ⟨p, sp, p, sp, po, so⟩ = none := by simp [Stub.chosen, Stub.guarded]
      rw [hcn] at h
      exact old d hd 0 _ h
  | kernel k e hl he mt _ hc hx' =>
    rw [hl] at hloop
    split at hloop
    · rename_i h' hlast
      obtain ⟨hm, ho, hdd⟩ := lastHook_some hlast
      have hmem := allHooks_mem h' (hsub.subset hm)
      cases hloop
      unfold unaryFunc at he
      split at he
      · have hbm := hent _ hmem.1 ho
        have hent' : (⟨.unary, objOf1 .logicalNot, h'.1.op⟩ : Hooks.Entry) = h'.1 := by
          rw [show objOf1 .logicalNot = Obj.logicalNot from rfl, ← ho, ← hbm.1]
        unfold Stub.chosen at hc
        split at hc
        · rename_i hat
          simp only [Stub.guarded] at hc
          split at hc
          · cases hc
          · rename_i hso
            obtain ⟨h1, h2, h⟩ := C55_logical_not F t e ⟨h'.1.op, by rw [hent']; exact hbm.2, he⟩ mt _ hat p sp po so hso n m x hx hs evs hx'
            have heq : storedNot e = fun a => (e.at h1 h2 (BitVec.ofNat _ a)).toNat := by
              funext a
              unfold storedNot OneFunc.at
              rw [BitVec.toNat_cast]
              congr 2
              apply BitVec.eq_of_toNat_eq
              rw [BitVec.toNat_cast, BitVec.toNat_ofNat, BitVec.toNat_ofNat, h1]
            rw [heq]
            exact h
        · cases hc
      · cases he
    · cases hloop
  | saved k o' d' hl hold mt _ hc hx' =>
    rw [hl] at hloop
    split at hloop
    · rename_i h' hlast
      obtain ⟨hm, ho, hdd⟩ := lastHook_some hlast
      have hmem := allHooks_mem h' (hsub.subset hm)
      cases hloop
      obtain ⟨d2, hd2, hat, hl2⟩ := saved_numpy hsub hi hsing hm ho hold
      injection hl2 with e1 e2
      subst e1 e2
      exact old d' (by rw [elem_atop _ hd2, hat, hdd, ← elem_atop _ (hdd ▸ hmem.2), hd]) mt _ (exec_none hc hx')
    · cases hloop

/-- **C113**: such a call can always be carried out. -/
theorem C113_logical_not_finishes (F : FloatUnit) (c : Cfg) (hist : List Call) (d : Nat) (t : DT) (np : Obj → Nat → Nat → Nat)
    (w : World) (p sp po so : Int) (n : Nat) : ∃ op evs, CallNot F (run c hist) .logicalNot d t np w p sp po so n op evs := by
  obtain ⟨hi, _⟩ := run_inv c hist
  have hsub : (if Call.doInit ∈ hist ∧ c.avx2 = true then c.hooks else []).Sublist allHooks := by
    split
    · exact hooks_sublist c
    · exact List.nil_sublist _
  generalize (if Call.doInit ∈ hist ∧ c.avx2 = true then c.hooks else []) = L at hi hsub
  have hloop := hi.loops .logicalNot d
  split at hloop
  · rename_i h' hlast
    obtain ⟨hm, ho, hdd⟩ := lastHook_some hlast
    obtain ⟨evs, hx⟩ := exec_exists .unary ⟨(unaryFunc F h'.key t).map (·.kernel), 3⟩ (worldOf (run c hist) w) ⟨p, sp, p, sp, po, so⟩ n
    cases hch : Stub.unary.chosen ⟨(unaryFunc F h'.key t).map (·.kernel), 3⟩ (worldOf (run c hist) w) ⟨p, sp, p, sp, po, so⟩ with
    | none =>
      obtain ⟨l, hl⟩ := Option.ne_none_iff_exists'.1 (hi.filled h' hm)
      obtain ⟨d', _, _, rfl⟩ := saved_numpy hsub hi (single_un .logicalNot (by decide)) hm ho hl
      exact ⟨_, _, .saved _ _ _ hloop hl 3 evs hch hx⟩
    | some K =>
      cases he : unaryFunc F h'.key t with
      | none => rw [he] at hch; simp [Stub.chosen, Stub.guarded] at hch
      | some e =>
        rw [he] at hch hx
        exact ⟨_, _, .kernel _ e hloop he 3 evs (by rw [Option.map_some] at hch; rw [hch]; rfl) hx⟩
  · exact ⟨_, _, .unhooked _ _ hloop⟩

/-- A history: import, disable, import again, enable. -/
def someHistory : List Call := [.atopEnable, .doInit, .threadDisable, .atopDisable, .doInit]

/-- Case: `a -= b` on 100000 int32 after it, whoever computes. -/
example (F : FloatUnit) (m : Int → BitVec 32) : ∃ op evs m',
    Call2 F (run (config F true none (fun _ => true) (fun _ => true)) someHistory) .subtract 5 .i32 (fun _ _ x y => x - y)
      ⟨true, false, false, false, 3, 0⟩ ⟨0, 4, 1000000, 4, 0, 4⟩ 100000 op evs ∧
    runMem op m evs = some m' ∧ Wraps .i32 (intVal .i32 (m 4) - intVal .i32 (m 1000004)) (m' 4) := by
  obtain ⟨op, evs, h⟩ := C113_call_finishes F (config F true none (fun _ => true) (fun _ => true)) someHistory .subtract 5 .i32
    (fun _ _ x y => x - y) ⟨true, false, false, false, 3, 0⟩ ⟨0, 4, 1000000, 4, 0, 4⟩ 100000
  obtain ⟨m', h1, h2, _⟩ := C113_integers F true none (fun _ => true) (fun _ => true) someHistory .subtract 5 .i32 rfl rfl
    (fun _ _ x y => x - y) (fun d' _ x y => by
      obtain ⟨e, he⟩ : ∃ e, BinaryKernel F .subtract .i32 e := ⟨_, .SUB, by decide, rfl⟩
      have := int_entry (F := F) (fn := .subtract) (t := .i32) rfl ⟨.SUB, by decide, rfl⟩ rfl x y
      exact this) _ _ _ m (by intro i j hi hj hne; simp only; omega) op evs h
  exact ⟨op, evs, m', h, h1, h2 1 (by decide)⟩

/-- Case: the same call is pnumpy's kernel's, without threads (`thread_disable` came last). -/
example (F : FloatUnit) (np w A n op evs) (hg : ¬ (A.p1 < A.po ∧ A.po < A.p1 + 64) ∧ ¬ (A.p2 < A.po ∧ A.po < A.p2 + 64))
    (h : Call2 F (run (config F true none (fun _ => true) (fun _ => true)) someHistory) .subtract 5 .i32 np w A n op evs) :
    ∃ e, BinaryKernel F .subtract .i32 e ∧ ∃ mt w', w'.noThreading = true ∧ Exec .binary ⟨some e.kernel, mt⟩ A n w' evs := by
  obtain ⟨e, he⟩ : ∃ e, BinaryKernel F .subtract .i32 e := ⟨_, .SUB, by decide, rfl⟩
  obtain ⟨_, _, mt, w', _, hw, hx⟩ := C113_enabled_uses_kernel F (fun _ => true) (fun _ => true) someHistory (by decide) (by decide)
    .subtract 5 .i32 rfl (by decide) e he np w A n hg op evs h
  exact ⟨e, he, mt, w', hw, hx⟩

/-- Case: negative of 100000 int64 (dtype long long) in place. -/
example (F : FloatUnit) (m : Int → BitVec 64) : ∃ op evs m',
    Call1 F (run (config F true none (fun _ => true) (fun _ => true)) someHistory) .negative 9 .i64 (fun _ _ x => -x)
      ⟨true, false, false, false, 3, 0⟩ 0 8 0 8 100000 op evs ∧
    runMem (fun x _ => op x) m evs = some m' ∧ Wraps .i64 (-intVal .i64 (m 16)) (m' 16) := by
  obtain ⟨op, evs, h⟩ := C113_unary_call_finishes F (config F true none (fun _ => true) (fun _ => true)) someHistory .negative (by decide) 9 .i64 rfl
    (fun _ _ x => -x) ⟨true, false, false, false, 3, 0⟩ 0 8 0 8 100000
  obtain ⟨m', h1, h2, _⟩ := C113_unary_integers F true none (fun _ => true) (fun _ => true) someHistory .negative (by decide) 9 .i64 rfl rfl
    (fun _ _ x => -x) (fun d' _ x => int_entry1 (F := F) (fn := .negative) (t := .i64) rfl (by decide) ⟨.NEGATIVE, by decide, rfl⟩ rfl rfl x)
    _ 0 8 0 8 100000 m (by intro i j hi hj hne; omega) op evs h
  exact ⟨op, evs, m', h, h1, h2 2 (by decide)⟩

/-- Case: less of 100000 doubles into a fresh array. -/
example (F : FloatUnit) (m : Int → Nat) (x y : Nat → BitVec 64)
    (hx : ∀ i : Nat, i < 100000 → m (0 + 8 * i) = (x i).toNat) (hy : ∀ i : Nat, i < 100000 → m (1000000 + 8 * i) = (y i).toNat) : ∃ op evs m',
    CallCmp (run (config F true none (fun _ => true) (fun _ => true)) someHistory) .less 12 .f64 (fun _ _ => cmpCell .f64 .lt)
      ⟨true, false, false, false, 3, 0⟩ ⟨0, 8, 1000000, 8, 2000000, 1⟩ 100000 op evs ∧
    runMem op m evs = some m' ∧ m' (2000000 + 1 * (3 : Nat)) = if CmpOp.lt.holds (value .f64 (x 3)) (value .f64 (y 3)) then 1 else 0 := by
  obtain ⟨op, evs, h⟩ := C113_comparison_finishes (config F true none (fun _ => true) (fun _ => true)) someHistory .lt 12 .f64
    (fun _ _ => cmpCell .f64 .lt) ⟨true, false, false, false, 3, 0⟩ ⟨0, 8, 1000000, 8, 2000000, 1⟩ 100000
  obtain ⟨m', h1, h2, _⟩ := C113_comparisons F true none (fun _ => true) (fun _ => true) someHistory .lt 12 .f64 rfl
    (fun _ _ => cmpCell .f64 .lt) (fun d' _ a b => by
      unfold cmpCell
      rw [BitVec.ofNat_toNat, BitVec.setWidth_eq, BitVec.ofNat_toNat, BitVec.setWidth_eq]
      have := Pnumpy.Props.dispatch_scalar .f64 .lt a b
      by_cases h : CmpOp.lt.holds (value .f64 a) (value .f64 b)
      · rw [this.mpr h, if_pos h]; rfl
      · rw [if_neg h, Bool.eq_false_iff.mpr fun h' => h (this.mp h')]; rfl)
    _ _ 100000 m x y hx hy (Or.inr (by intro i j hi hj; simp only; omega)) op evs h
  exact ⟨op, evs, m', h, h1, h2 3 (by decide)⟩

/-- Case: logical_not of 100000 int16 into a fresh array. -/
example (F : FloatUnit) (m : Int → Nat) (x : Nat → BitVec 16) (hx : ∀ i : Nat, i < 100000 → m (0 + 2 * i) = (x i).toNat) : ∃ op evs m',
    CallNot F (run (config F true none (fun _ => true) (fun _ => true)) someHistory) .logicalNot 3 .i16 (fun _ _ a => if a = 0 then 1 else 0)
      ⟨true, false, false, false, 3, 0⟩ 0 2 1000000 1 100000 op evs ∧
    runMem (fun a _ => op a) m evs = some m' ∧ m' (1000000 + 1 * (3 : Nat)) = if value .i16 (x 3) = .fin 0 then 1 else 0 := by
  obtain ⟨op, evs, h⟩ := C113_logical_not_finishes F (config F true none (fun _ => true) (fun _ => true)) someHistory 3 .i16
    (fun _ _ a => if a = 0 then 1 else 0) ⟨true, false, false, false, 3, 0⟩ 0 2 1000000 1 100000
  obtain ⟨m', h1, h2, _⟩ := C113_logical_not F true none (fun _ => true) (fun _ => true) someHistory 3 .i16 rfl
    (fun _ _ a => if a = 0 then 1 else 0) (fun d' _ a => by
      have hv : value .i16 a = .fin 0 ↔ a.toNat = 0 := by
        show Value.fin a.toInt = Value.fin 0 ↔ _
        rw [Value.fin.injEq]
        have key : ∀ b : BitVec 16, b.toInt = 0 ↔ b.toNat = 0 := fun b => by
          rw [BitVec.toInt_eq_toNat_cond]
          have := b.isLt
          split <;> omega
        exact key a
      simp only [hv])
    _ 0 2 1000000 1 100000 m x hx (by intro i j hi hj; omega) op evs h
  exact ⟨op, evs, m', h, h1, h2 3 (by decide)⟩

end Pnumpy.Props
