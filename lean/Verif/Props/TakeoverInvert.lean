import Verif.Props.Takeover
/-
C113 for np.invert (also np.bitwise_not), whose loops pnumpy replaces twice: the loop saved by the second stub is the first stub.
-/
namespace Pnumpy.Props
open Pnumpy.Spec Pnumpy.Elem Pnumpy.Dispatch Pnumpy.OpTables Pnumpy.Hooks Pnumpy.Takeover

private theorem elem_of_atype {d d' : Nat} (h : d ∈ dtypes) (h' : d' ∈ dtypes) (e : atype d = atype d') : elemType d = elemType d' := by
  rw [elem_atop _ h, elem_atop _ h', e]

/-- A loop np.invert can reach on elements of type `t`. -/
private def Good (L : List Hook) (t : DT) (l : Loop) : Prop :=
  (∃ d, l = .numpy .invert d ∧ elemType d = some t) ∨ ∃ h ∈ L, l = .stub h.key ∧ h.1.obj = .invert ∧ elemType h.2 = some t

/-- The loop saved by such a stub is again one, of lower rank. -/
private theorem good_old {L : List Hook} (hL : L.Sublist allHooks) {s : St} (hi : Inv L s) {t : DT} {k : Key} (hk : Good L t (.stub k)) {l : Loop}
    (hl : s.old k = some l) : Good L t l ∧ ∀ k', l = .stub k' → rank k' < rank k := by
  rcases hk with ⟨d, h, _⟩ | ⟨h, hm, hk, ho, hd⟩
  · cases h
  · injection hk with hk
    subst hk
    obtain ⟨h1, hm1, hk1, hor⟩ := hi.old _ _ hl
    have hmem := allHooks_mem h (hL.subset hm)
    have hmem1 := allHooks_mem h1 (hL.subset hm1)
    have hobj : h1.1.obj = .invert := by
      rw [← ho]; exact entries_inj _ hmem1.1 _ hmem.1 (congrArg Key.tbl hk1) (congrArg Key.op hk1)
    have hd1 : elemType h1.2 = some t := by rw [elem_of_atype hmem1.2 hmem.2 (congrArg Key.atype hk1), hd]
    rcases hor with rfl | ⟨h2, hm2, ho2, hd2, rfl, hr2⟩
    · exact ⟨Or.inl ⟨h1.2, by rw [hobj], hd1⟩, by intro k' h'; cases h'⟩
    · refine ⟨Or.inr ⟨h2, hm2, rfl, ho2.trans hobj, by rw [hd2]; exact hd1⟩, ?_⟩
      intro k' h'
      injection h' with h'
      rw [← h']; exact hr2

/-- All its stubs have the same kernel. -/
private theorem good_func {L : List Hook} (hL : L.Sublist allHooks) {t : DT} {k : Key} (hk : Good L t (.stub k)) (F : FloatUnit) :
    unaryFunc F k t = (unaryOp F .INVERT t).func ∧ ((unaryOp F .INVERT t).func = none ∨ ∃ e, (unaryOp F .INVERT t).func = some e ∧ UnaryKernel F .invert t e) := by
  rcases hk with ⟨d, h, _⟩ | ⟨h, hm, hk, ho, hd⟩
  · cases h
  · injection hk with hk
    subst hk
    have hmem := allHooks_mem h (hL.subset hm)
    have hb := un_entries .invert _ hmem.1 ho
    have hop : h.1.op = .INVERT ∨ h.1.op = .BITWISE_NOT := by
      have key : ∀ e ∈ unaryMapping, e.obj = .invert → e.op = .INVERT ∨ e.op = .BITWISE_NOT := by decide
      exact key _ hb.2 ho
    constructor
    · unfold unaryFunc
      rw [if_pos ⟨hb.1, by show atopDT (atype h.2) = _; rw [← elem_atop _ hmem.2]; exact hd⟩]
      rcases hop with h' | h' <;> rw [show h.key.op = _ from h']
      rfl
    · cases hf : (unaryOp F .INVERT t).func with
      | none => exact Or.inl rfl
      | some e => exact Or.inr ⟨e, rfl, .INVERT, by decide, hf⟩

/-- A piece, where the stubs use no kernel. -/
private theorem piece_old {L : List Hook} (hL : L.Sublist allHooks) {s : St} (hi : Inv L s) {F : FloatUnit} {t : DT}
    {np : Obj → Nat → BitVec t.bits → BitVec t.bits} {w : World} {A : Args} {n : Nat}
    (hc : Stub.unary.chosen ⟨((unaryOp F .INVERT t).func).map (·.kernel), 0⟩ (worldOf s w) A = none) {l op acc} (hl : Good L t l)
    (h : Piece1 F s t np w A n l op acc) : (∃ d', elemType d' = some t ∧ op = np .invert d') ∧ acc = oldLoop A n := by
  induction h with
  | numpy o d =>
    rcases hl with ⟨d', h, hd⟩ | ⟨_, _, h, _⟩
    · cases h; exact ⟨⟨_, hd, rfl⟩, rfl⟩
    · cases h
  | kernel k e he hb hb' hc' =>
    rw [(good_func hL hl F).1] at he
    rw [he, Option.map_some] at hc
    rw [hc] at hc'; cases hc'
  | saved k l ho _ op acc _ ih => exact ih (good_old hL hi hl ho).1

private theorem at_so (A : Args) (i : Nat) : (A.at i).so = A.so := rfl

private theorem chosen_at (e : Dispatch.Entry) (w : World) (A : Args) (i : Nat) : Stub.unary.chosen e w (A.at i) = Stub.unary.chosen e w A := by
  unfold Stub.chosen Stub.guarded; rw [at_so]

private theorem chosen_old (w : World) (mt : Int) (A : Args) : Stub.unary.chosen ⟨none, mt⟩ w A = none := by
  simp [Stub.chosen, Stub.guarded]

/-- What a call of np.invert can do. -/
private theorem loop_cases {L : List Hook} (hL : L.Sublist allHooks) {s : St} (hi : Inv L s) {F : FloatUnit} {t : DT}
    {np : Obj → Nat → BitVec t.bits → BitVec t.bits} {w : World} {A : Args} {n : Nat} {l op evs} (hl : Good L t l)
    (h : Loop1 F s t np A n w l op evs) :
    (∃ e, UnaryKernel F .invert t e ∧ ∃ (hb : e.inBits = t.bits) (hb' : e.outBits = t.bits), op = e.at hb hb' ∧ A.so ≠ 0 ∧ ∃ mt w', w'.atop = true ∧
      Exec .unary ⟨some e.kernel, mt⟩ A n w' evs) ∨
    (∃ d', elemType d' = some t ∧ op = np .invert d' ∧ ∃ mt w', Exec .unary ⟨none, mt⟩ A n w' evs) := by
  induction h with
  | numpy w o d =>
    right
    rcases hl with ⟨d', h, hd⟩ | ⟨_, _, h, _⟩
    · cases h
      have h := Exec.serial (st := .unary) (e := ⟨none, 0⟩) (A := A) (n := n) (w := ⟨true, false, true, false, 0, 0⟩) rfl
        (by simp [World.getsItem])
      rw [chosen_old] at h
      exact ⟨_, hd, rfl, 0, _, h⟩
    · cases h
  | kernel w k e he hb hb' mt evs hc hx =>
    left
    have hf := good_func hL hl F
    rw [hf.1] at he
    obtain ⟨e', he', hk⟩ : ∃ e', (unaryOp F .INVERT t).func = some e' ∧ UnaryKernel F .invert t e' := by
      rcases hf.2 with h | h
      · rw [he] at h; cases h
      · exact h
    rw [he] at he'
    cases he'
    unfold Stub.chosen at hc
    split at hc
    · rename_i hat
      simp only [Stub.guarded] at hc
      split at hc
      · cases hc
      · rename_i hso
        exact ⟨e, hk, hb, hb', rfl, hso, mt, _, hat, hx⟩
    · cases hc
  | savedSerial w k l ho hc hg w' op evs _ ih => exact ih (good_old hL hi hl ho).1
  | savedThreaded w k l ho hc hg mt sched hret op prog hr evs hint =>
    right
    rw [(good_func hL hl F).1] at hc
    have hgl := (good_old hL hi hl ho).1
    have hp := fun c hcm => piece_old hL hi (by rw [chosen_at]; exact hc) hgl (hr c hcm)
    have hbig : 0 < n := by
      rcases Nat.eq_zero_or_pos n with h | h
      · exfalso
        subst h
        unfold World.getsItem at hg
        rw [if_pos (Or.inl (show 0 < Work.BIG by decide))] at hg
        cases hg
      · exact h
    obtain ⟨c, hcm⟩ : ∃ c, c ∈ Work.kernelCalls (Work.workMainSetup n mt w.maxWakeup Work.CHUNK true w.zigzag)
        (Work.exec (Work.workMainSetup n mt w.maxWakeup Work.CHUNK true w.zigzag) sched) := by
      have h := C01_exactly_once n mt w.maxWakeup w.zigzag sched hret 0
      rw [if_pos hbig] at h
      unfold timesProcessed at h
      obtain ⟨c, hc, _⟩ := List.countP_pos_iff.1 (by rw [h]; decide)
      exact ⟨c, hc⟩
    obtain ⟨d', hd', hop⟩ := (hp c hcm).1
    refine ⟨d', hd', hop, mt, { worldOf s w with ledger := false }, ?_⟩
    have hg' : ({ worldOf s w with ledger := false } : World).getsItem n = true := hg
    refine Exec.threaded (st := .unary) (e := ⟨none, mt⟩) rfl hg' sched hret evs ?_
    rw [chosen_old]
    refine (List.map_congr_left fun c hc => ?_) ▸ hint
    exact (hp c hc).2

private theorem good_start {L : List Hook} (hL : L.Sublist allHooks) {s : St} (hi : Inv L s) {t : DT} {d : Nat} (hd : elemType d = some t) :
    Good L t (s.loops .invert d) := by
  have hloop := hi.loops .invert d
  split at hloop
  · rename_i h' hlast
    obtain ⟨hm, ho, hdd⟩ := lastHook_some hlast
    exact Or.inr ⟨h', hm, hloop, ho, by rw [hdd]; exact hd⟩
  · exact Or.inl ⟨d, hloop, hd⟩

private theorem hooked_list (c : Cfg) (hist : List Call) : ∃ L, L.Sublist allHooks ∧ Inv L (run c hist) := by
  refine ⟨_, ?_, (run_inv c hist).1⟩
  split
  · exact hooks_sublist c
  · exact List.nil_sublist _

/-- **C113**: np.invert of integers, after any sequence of calls. -/
theorem C113_invert (F : FloatUnit) (avx2 : Bool) (stop : Option Nat) (otherSel : Hook → Bool) (otherKernel : Key → Bool)
    (hist : List Call) (d : Nat) (t : DT) (hd : elemType d = some t) (ht : t.isInt = true)
    (np : Obj → Nat → BitVec t.bits → BitVec t.bits) (hnp : ∀ d', elemType d' = some t → ∀ x, IntResult1 t x (np .invert d' x) .invert)
    (w : World) (p sp po so : Int) (n : Nat) (m : Int → BitVec t.bits) (hs : SafeOverlap n p sp p sp po so) (op evs)
    (hcall : Loop1 F (run (config F avx2 stop otherSel otherKernel) hist) t np ⟨p, sp, p, sp, po, so⟩ n w
      ((run (config F avx2 stop otherSel otherKernel) hist).loops .invert d) op evs) :
    ∃ m' : Int → BitVec t.bits, runMem (fun x _ => op x) m evs = some m' ∧
      (∀ i : Nat, i < n → IntResult1 t (m (p + sp * i)) (m' (po + so * i)) .invert) ∧
      (∀ a, (∀ i : Nat, i < n → a ≠ po + so * i) → m' a = m a) := by
  obtain ⟨L, hL, hi⟩ := hooked_list (config F avx2 stop otherSel otherKernel) hist
  rcases loop_cases hL hi (good_start hL hi hd) hcall with ⟨e, he, hb, hb', rfl, hso, mt, w', hw', hx⟩ | ⟨d', hd', rfl, mt, w', hx⟩
  · obtain ⟨_, _, h⟩ := C55_integers F .invert (by decide) t ht e he mt w' hw' p sp po so hso n m hs evs hx
    exact h
  · obtain ⟨m', h1, h2⟩ := C51_call_result .unary ⟨none, mt⟩ w' ⟨p, sp, p, sp, po, so⟩ n m (fun x _ => np .invert d' x)
      (fun x _ => np .invert d' x) ⟨by simp, by simp⟩ (Or.inl ⟨by simp, hs⟩) evs hx
    simp only [usedOp, ite_self] at h1 h2
    exact ⟨m', h1, fun i hi => by rw [h2.1 i hi]; exact hnp d' hd' _, h2.2⟩

/-- **C113**: np.invert of booleans stored as 0 and 1. -/
theorem C113_invert_booleans_partial (F : FloatUnit) (avx2 : Bool) (stop : Option Nat) (otherSel : Hook → Bool) (otherKernel : Key → Bool)
    (hist : List Call) (np : Obj → Nat → BitVec 8 → BitVec 8) (hnp : ∀ d', elemType d' = some .bool → ∀ x, np .invert d' (boolElem x) = boolElem (!x))
    (w : World) (p sp po so : Int) (n : Nat) (m : Int → BitVec 8) (x : Nat → Bool)
    (hx : ∀ i : Nat, i < n → m (p + sp * i) = boolElem (x i)) (hs : SafeOverlap n p sp p sp po so) (op evs)
    (hcall : Loop1 F (run (config F avx2 stop otherSel otherKernel) hist) .bool np ⟨p, sp, p, sp, po, so⟩ n w
      ((run (config F avx2 stop otherSel otherKernel) hist).loops .invert 0) op evs) :
    ∃ m' : Int → BitVec 8, runMem (fun x _ => op x) m evs = some m' ∧
      (∀ i : Nat, i < n → m' (po + so * i) = boolElem (!x i)) ∧
      (∀ a, (∀ i : Nat, i < n → a ≠ po + so * i) → m' a = m a) := by
  obtain ⟨L, hL, hi⟩ := hooked_list (config F avx2 stop otherSel otherKernel) hist
  rcases loop_cases hL hi (good_start hL hi (t := .bool) (d := 0) rfl) hcall with ⟨e, he, hb, hb', rfl, hso, mt, w', hw', hx'⟩ | ⟨d', hd', rfl, mt, w', hx'⟩
  · obtain ⟨_, _, h⟩ := C55_invert_bool_partial F e he mt w' hw' p sp po so hso n m x hx hs evs hx'
    exact h
  · obtain ⟨m', h1, h2⟩ := C51_call_result .unary ⟨none, mt⟩ w' ⟨p, sp, p, sp, po, so⟩ n m (fun x _ => np .invert d' x)
      (fun x _ => np .invert d' x) ⟨by simp, by simp⟩ (Or.inl ⟨by simp, hs⟩) evs hx'
    simp only [usedOp, ite_self] at h1 h2
    exact ⟨m', h1, fun i hi => by rw [h2.1 i hi, hx i hi]; exact hnp d' hd' _, h2.2⟩

private theorem piece_exists {L : List Hook} (hL : L.Sublist allHooks) {s : St} (hi : Inv L s) {F : FloatUnit} {t : DT}
    (np : Obj → Nat → BitVec t.bits → BitVec t.bits) (w : World) (A : Args)
    (hc : Stub.unary.chosen ⟨((unaryOp F .INVERT t).func).map (·.kernel), 0⟩ (worldOf s w) A = none) :
    ∀ r l, (∀ k, l = .stub k → rank k < r) → Good L t l → ∃ op, ∀ i n, Piece1 F s t np w (A.at i) n l op (oldLoop (A.at i) n) := by
  intro r
  induction r with
  | zero =>
    intro l hr hl
    rcases hl with ⟨d, rfl, hd⟩ | ⟨h, hm, rfl, ho, hd⟩
    · exact ⟨_, fun i n => .numpy _ _⟩
    · exact absurd (hr _ rfl) (Nat.not_lt_zero _)
  | succ r ih =>
    intro l hr hl
    rcases hl with ⟨d, rfl, hd⟩ | ⟨h, hm, rfl, ho, hd⟩
    · exact ⟨_, fun i n => .numpy _ _⟩
    · have hgood : Good L t (.stub h.key) := Or.inr ⟨h, hm, rfl, ho, hd⟩
      obtain ⟨l, hl⟩ := Option.ne_none_iff_exists'.1 (hi.filled h hm)
      obtain ⟨hg, hlt⟩ := good_old hL hi hgood hl
      obtain ⟨op, hop⟩ := ih l (fun k hk => Nat.lt_of_lt_of_le (hlt k hk) (Nat.le_of_lt_succ (hr _ rfl))) hg
      exact ⟨op, fun i n => .saved _ _ hl (by rw [(good_func hL hgood F).1, chosen_at]; exact hc) _ _ (hop i n)⟩

/-- **C113**: a call of np.invert can always be carried out: following the saved loops ends at numpy's own. -/
theorem C113_invert_finishes (F : FloatUnit) (c : Cfg) (hist : List Call) (d : Nat) (t : DT) (hd : elemType d = some t) (ht : t.isInt = true ∨ t = .bool)
    (np : Obj → Nat → BitVec t.bits → BitVec t.bits) (w : World) (A : Args) (n : Nat) :
    ∃ op evs, Loop1 F (run c hist) t np A n w ((run c hist).loops .invert d) op evs := by
  obtain ⟨L, hL, hi⟩ := hooked_list c hist
  have hstart := good_start hL hi hd
  generalize (run c hist).loops .invert d = l at hstart
  have main : ∀ r l, (∀ k, l = .stub k → rank k < r) → Good L t l → ∃ op evs, Loop1 F (run c hist) t np A n w l op evs := by
    intro r
    induction r with
    | zero =>
      intro l hr hl
      rcases hl with ⟨d, rfl, hd⟩ | ⟨h, hm, rfl, ho, hd⟩
      · exact ⟨_, _, .numpy _ _ _⟩
      · exact absurd (hr _ rfl) (Nat.not_lt_zero _)
    | succ r ih =>
      intro l hr hl
      rcases hl with ⟨d, rfl, hd⟩ | ⟨h, hm, rfl, ho, hd⟩
      · exact ⟨_, _, .numpy _ _ _⟩
      · have hgood : Good L t (.stub h.key) := Or.inr ⟨h, hm, rfl, ho, hd⟩
        have hf := good_func hL hgood F
        obtain ⟨l, hl⟩ := Option.ne_none_iff_exists'.1 (hi.filled h hm)
        obtain ⟨hg, hlt⟩ := good_old hL hi hgood hl
        have hlt' : ∀ k, l = .stub k → rank k < r := fun k hk => Nat.lt_of_lt_of_le (hlt k hk) (Nat.le_of_lt_succ (hr _ rfl))
        cases hch : Stub.unary.chosen ⟨((unaryOp F .INVERT t).func).map (·.kernel), 0⟩ (worldOf (run c hist) w) A with
        | none =>
          cases hgi : (worldOf (run c hist) w).getsItem n with
          | false =>
            obtain ⟨op, evs, hx⟩ := ih l hlt' hg
            exact ⟨op, evs, .savedSerial _ _ _ hl (by rw [hf.1]; exact hch) hgi _ _ _ hx⟩
          | true =>
            obtain ⟨op, hop⟩ := piece_exists hL hi np w A hch r l hlt' hg
            obtain ⟨sched, hret⟩ := returns_alone n 3 w.maxWakeup w.zigzag
            exact ⟨op, _, .savedThreaded _ _ _ hl (by rw [hf.1]; exact hch) hgi 3 sched hret op (fun c => oldLoop (A.at c.1) c.2)
              (fun c _ => hop c.1 c.2) _ (sequential_interleaving _)⟩
        | some K =>
          cases he : (unaryOp F .INVERT t).func with
          | none => rw [he] at hch; simp [Stub.chosen, Stub.guarded] at hch
          | some e =>
            obtain ⟨h1, _, _, _, h5⟩ := un_shape he
            obtain ⟨evs, hx⟩ := exec_exists .unary ⟨some e.kernel, 3⟩ (worldOf (run c hist) w) A n
            rw [he, Option.map_some] at hch
            exact ⟨_, evs, .kernel _ _ e (by rw [hf.1, he]) h1 h5 3 evs (by
              show (Stub.unary.chosen ⟨some e.kernel, 0⟩ (worldOf (run c hist) w) A).isSome = true
              rw [hch]; rfl) hx⟩
  refine main 2 l (fun k _ => ?_) hstart
  unfold rank; split <;> decide

/-- Case: invert of 100000 int64 in place, after pnumpy was disabled again (both stubs pass it on). -/
example (F : FloatUnit) (m : Int → BitVec 64) : ∃ op evs m',
    Loop1 F (run (config F true none (fun _ => true) (fun _ => true)) [.atopDisable, .doInit]) .i64 (fun _ _ x => ~~~x) ⟨0, 8, 0, 8, 0, 8⟩ 100000
      ⟨true, false, false, false, 3, 0⟩ ((run (config F true none (fun _ => true) (fun _ => true)) [.atopDisable, .doInit]).loops .invert 9) op evs ∧
    runMem (fun x _ => op x) m evs = some m' ∧ ∀ i, i < 64 → (m' 16).getLsbD i = !(m 16).getLsbD i := by
  obtain ⟨op, evs, h⟩ := C113_invert_finishes F (config F true none (fun _ => true) (fun _ => true)) [.atopDisable, .doInit] 9 .i64 rfl (Or.inl rfl)
    (fun _ _ x => ~~~x) ⟨true, false, false, false, 3, 0⟩ ⟨0, 8, 0, 8, 0, 8⟩ 100000
  obtain ⟨m', h1, h2, _⟩ := C113_invert F true none (fun _ => true) (fun _ => true) [.atopDisable, .doInit] 9 .i64 rfl rfl
    (fun _ _ x => ~~~x) (fun d' _ x i hi => by
      rw [BitVec.getLsbD_not]; simp only [hi, decide_true, Bool.true_and]) _ 0 8 0 8 100000 m (by intro i j hi hj hne; omega) op evs h
  exact ⟨op, evs, m', h, h1, h2 2 (by decide)⟩

end Pnumpy.Props
