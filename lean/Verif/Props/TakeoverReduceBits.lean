import Verif.Props.TakeoverReduce
import Verif.Spec.BitReduction
/-
C113 for the reductions of booleans and the bitwise reductions of integers.
-/
namespace Pnumpy.Props
open Pnumpy.Spec Pnumpy.Elem Pnumpy.Dispatch Pnumpy.OpTables Pnumpy.Hooks Pnumpy.Takeover Pnumpy.Reduce Pnumpy.IntOps Pnumpy.Simd

/-- When a reduction is not the saved loop run per block over elements that are not adjacent. -/
theorem red_cases {c : Cfg} {F : FloatUnit} {hist : List Call} {fn : BinFn} {d : Nat} {t : DT} (hd : elemType d = some t)
    {np : Obj → Nat → BitVec t.bits → BitVec t.bits → BitVec t.bits} {w : World} {sr : Int} {xs : List (BitVec t.bits)} {init : BitVec t.bits} {r}
    (hcall : CallRed F (run c hist) (objOf fn) d t np w sr xs init r) {m : Nat} (hlen : xs.length = m) :
    (∃ d', elemType d' = some t ∧ r = some (numpyReduce (np (objOf fn) d') xs init)) ∨
    (∃ e o, (⟨.binary, objOf fn, o⟩ : Hooks.Entry) ∈ binaryMapping ∧ reduceOpFast F o t = some e ∧ ∃ hb : e.bits = t.bits,
      (r = reduceFast (e.at hb) (256 / e.bits) (layoutOf sr) xs init ∨
       ∃ req mw zz sched, (Work.exec (ufuncItem m req mw zz) sched).pc 0 = .returned ∧
        r = threadedFast (e.at hb) (256 / e.bits) (layoutOf sr) ((reduceStartVal o t e.bits).map (BitVec.cast hb)) xs init
          (Work.kernelCalls (ufuncItem m req mw zz) (Work.exec (ufuncItem m req mw zz) sched)))) ∨
    (∃ d' o, elemType d' = some t ∧ (⟨.binary, objOf fn, o⟩ : Hooks.Entry) ∈ binaryMapping ∧ 65536 ≤ m ∧ threadsNow hist = true ∧
      (enabledNow hist = false ∨ reduceOpFast F o t = none) ∧
      ∃ req mw zz sched, (Work.exec (ufuncItem m req mw zz) sched).pc 0 = .returned ∧
        r = threadedNumpy (np (objOf fn) d') (reduceStartVal o t t.bits) sr xs init
          (Work.kernelCalls (ufuncItem m req mw zz) (Work.exec (ufuncItem m req mw zz) sched))) := by
  subst hlen
  obtain ⟨hi, _⟩ := run_inv c hist
  have hset := atop_run c hist
  have hsub : (if Call.doInit ∈ hist ∧ c.avx2 = true then c.hooks else []).Sublist allHooks := by
    split
    · exact hooks_sublist c
    · exact List.nil_sublist _
  generalize (if Call.doInit ∈ hist ∧ c.avx2 = true then c.hooks else []) = L at hi hsub
  have hloop := hi.loops (objOf fn) d
  have hstub : ∀ k, (run c hist).loops (objOf fn) d = .stub k →
      ∃ h' ∈ L, h'.key = k ∧ h'.1.obj = objOf fn ∧ h'.2 = d ∧ (⟨.binary, objOf fn, k.op⟩ : Hooks.Entry) ∈ binaryMapping ∧ k.tbl = .binary ∧
        d ∈ dtypes ∧ atopDT k.atype = some t := by
    intro k hl
    rw [hl] at hloop
    split at hloop
    · rename_i h' hlast
      obtain ⟨hm, ho, hd'⟩ := lastHook_some hlast
      have hmem := allHooks_mem h' (hsub.subset hm)
      have hb' := bin_entries fn _ hmem.1 ho
      cases hloop
      refine ⟨h', hm, rfl, ho, hd', ?_, hb'.1, hd' ▸ hmem.2, ?_⟩
      · have : (⟨.binary, objOf fn, h'.1.op⟩ : Hooks.Entry) = h'.1 := by rw [← ho, ← hb'.1]
        exact this ▸ hb'.2
      · show atopDT (atype h'.2) = some t
        rw [hd', ← elem_atop _ (hd' ▸ hmem.2), hd]
    · cases hloop
  have hsaved : ∀ k o' d', (run c hist).loops (objOf fn) d = .stub k → (run c hist).old k = some (.numpy o' d') →
      o' = objOf fn ∧ elemType d' = some t := by
    intro k o' d' hl ho
    obtain ⟨h', hm, rfl, hob, hd', _, _, hdm, hat⟩ := hstub k hl
    obtain ⟨d2, hd2, hat2, hl2⟩ := saved_numpy hsub hi (single_bin fn) hm hob ho
    injection hl2 with e1 e2
    subst e1 e2
    exact ⟨rfl, by rw [elem_atop _ hd2, hat2]; exact hat⟩
  have hkern : ∀ k, (run c hist).loops (objOf fn) d = .stub k → reduceFunc F k t = reduceOpFast F k.op t := by
    intro k hl
    obtain ⟨_, _, _, _, _, hm, htb, _, hat⟩ := hstub k hl
    unfold reduceFunc
    rw [if_pos ⟨htb, hat⟩]
  cases hcall with
  | unhooked o' d' hl =>
    left
    rw [hl] at hloop
    split at hloop
    · cases hloop
    · cases hloop
      exact ⟨d, hd, rfl⟩
  | kernelSerial k e hl hw hat he hb =>
    right; left
    obtain ⟨_, _, _, _, _, hm, _⟩ := hstub k hl
    exact ⟨e, k.op, hm, (hkern k hl).symm.trans he, hb, Or.inl rfl⟩
  | kernelThreaded k e hl hw hat he hb mt sched hret =>
    right; left
    obtain ⟨_, _, _, _, _, hm, _⟩ := hstub k hl
    exact ⟨e, k.op, hm, (hkern k hl).symm.trans he, hb, Or.inr ⟨mt, _, _, sched, hret, rfl⟩⟩
  | savedSerial k o' d' hl hw hno ho =>
    left
    obtain ⟨rfl, hd'⟩ := hsaved k o' d' hl ho
    exact ⟨d', hd', rfl⟩
  | savedThreaded k o' d' hl hw hno ho mt sched hret =>
    right; right
    obtain ⟨rfl, hd'⟩ := hsaved k o' d' hl ho
    obtain ⟨_, _, _, _, _, hm, _⟩ := hstub k hl
    unfold World.getsItem at hw
    split at hw
    · cases hw
    · rename_i hng
      have h1 : ¬ xs.length < Work.BIG := fun h => hng (Or.inl h)
      have h2 : ¬ (run c hist).noThreading = true := fun h => hng (Or.inr h)
      refine ⟨d', k.op, hd', hm, Nat.not_lt.1 h1, ?_, ?_, mt, _, _, sched, hret, rfl⟩
      · rw [← hset.2.1]; simpa using h2
      · rcases hno with h | h
        · exact Or.inl (by rw [← hset.1]; exact h)
        · exact Or.inr ((hkern k hl).symm.trans h)

private theorem opOfBits {fn : BinFn} (hfn : fn ∈ [BinFn.bitwiseAnd, .bitwiseOr, .bitwiseXor]) {o : Hooks.Op}
    (h : (⟨.binary, objOf fn, o⟩ : Hooks.Entry) ∈ binaryMapping) (F : FloatUnit) (t : DT) :
    reduceOpFast F o t = none ∧ reduceStartVal o t t.bits = none := by
  rw [opOf h]
  simp only [List.mem_cons, List.not_mem_nil, or_false] at hfn
  rcases hfn with rfl | rfl | rfl <;> exact ⟨rfl, rfl⟩

private theorem bits_ext {k : Nat} {x y : BitVec k} (h : ∀ i, i < k → x.getLsbD i = y.getLsbD i) : x = y :=
  BitVec.eq_of_getLsbD_eq h

private theorem fold_bit {k : Nat} (f : BitVec k → BitVec k → BitVec k) (g : Bool → Bool → Bool) (i : Nat)
    (h : ∀ x y, (f x y).getLsbD i = g (x.getLsbD i) (y.getLsbD i)) (init : BitVec k) (xs : List (BitVec k)) :
    (xs.foldl f init).getLsbD i = (xs.map fun x => x.getLsbD i).foldl g (init.getLsbD i) := by
  induction xs generalizing init with
  | nil => rfl
  | cons x xs ih => rw [List.foldl_cons, ih, List.map_cons, List.foldl_cons, h]

private theorem fold_and (b : Bool) (l : List Bool) : l.foldl and b = (b && l.all id) := by
  induction l generalizing b with
  | nil => simp
  | cons x l ih => rw [List.foldl_cons, ih]; simp [Bool.and_assoc]

private theorem fold_or (b : Bool) (l : List Bool) : l.foldl or b = (b || l.any id) := by
  induction l generalizing b with
  | nil => simp
  | cons x l ih => rw [List.foldl_cons, ih]; simp [Bool.or_assoc]

private theorem fold_xor (b : Bool) (l : List Bool) : l.foldl xor b = decide ((b :: l).countP id % 2 = 1) := by
  induction l generalizing b with
  | nil => cases b <;> rfl
  | cons x l ih =>
    rw [List.foldl_cons, ih]
    simp only [List.countP_cons]
    cases b <;> cases x <;> simp <;> omega

/-- What a bitwise reduction folds to. -/
private theorem bit_reduction {fn : BinFn} (hfn : fn ∈ [BinFn.bitwiseAnd, .bitwiseOr, .bitwiseXor]) {t : DT}
    (f : BitVec t.bits → BitVec t.bits → BitVec t.bits) (hf : ∀ x y, IntResult t x y (f x y) fn) :
    AssocComm f ∧ (∀ init, (fn = .bitwiseXor → init = 0) → GoodStart f none init) ∧ ∀ init xs, BitReduction init xs (reduceSpec f init xs) fn := by
  simp only [List.mem_cons, List.not_mem_nil, or_false] at hfn
  have hsp : ∀ (g : Bool → Bool → Bool), (∀ x y i, i < t.bits → (f x y).getLsbD i = g (x.getLsbD i) (y.getLsbD i)) →
      ∀ init xs i, i < t.bits → (reduceSpec f init xs).getLsbD i = (xs.map fun x => x.getLsbD i).foldl g (init.getLsbD i) :=
    fun g h init xs i hi => fold_bit f g i (fun x y => h x y i hi) init xs
  rcases hfn with rfl | rfl | rfl
  · have hb : ∀ x y i, i < t.bits → (f x y).getLsbD i = and (x.getLsbD i) (y.getLsbD i) := fun x y i hi => hf x y i hi
    refine ⟨⟨fun x y z => bits_ext fun i hi => ?_, fun x y => bits_ext fun i hi => ?_⟩, fun init _ => bits_ext fun i hi => ?_, fun init xs i hi => ?_⟩
    · rw [hb _ _ i hi, hb _ _ i hi, hb _ _ i hi, hb _ _ i hi, Bool.and_assoc]
    · rw [hb _ _ i hi, hb _ _ i hi, Bool.and_comm]
    · rw [hb _ _ i hi]; exact Bool.and_self _
    · rw [hsp and hb init xs i hi, fold_and, List.all_map]; rfl
  · have hb : ∀ x y i, i < t.bits → (f x y).getLsbD i = or (x.getLsbD i) (y.getLsbD i) := fun x y i hi => hf x y i hi
    refine ⟨⟨fun x y z => bits_ext fun i hi => ?_, fun x y => bits_ext fun i hi => ?_⟩, fun init _ => bits_ext fun i hi => ?_, fun init xs i hi => ?_⟩
    · rw [hb _ _ i hi, hb _ _ i hi, hb _ _ i hi, hb _ _ i hi, Bool.or_assoc]
    · rw [hb _ _ i hi, hb _ _ i hi, Bool.or_comm]
    · rw [hb _ _ i hi]; exact Bool.or_self _
    · rw [hsp or hb init xs i hi, fold_or, List.any_map]; rfl
  · have hb : ∀ x y i, i < t.bits → (f x y).getLsbD i = xor (x.getLsbD i) (y.getLsbD i) := fun x y i hi => hf x y i hi
    refine ⟨⟨fun x y z => bits_ext fun i hi => ?_, fun x y => bits_ext fun i hi => ?_⟩, fun init h0 => bits_ext fun i hi => ?_, fun init xs i hi => ?_⟩
    · rw [hb _ _ i hi, hb _ _ i hi, hb _ _ i hi, hb _ _ i hi, Bool.xor_assoc]
    · rw [hb _ _ i hi, hb _ _ i hi, Bool.xor_comm]
    · rw [hb _ _ i hi, h0 rfl]; simp
    · rw [hsp xor hb init xs i hi, fold_xor, ← List.map_cons (f := fun x : BitVec t.bits => x.getLsbD i), List.countP_map]; rfl

/-- **C113**: bitwise reductions of integers, after any sequence of calls, of contiguous or short arrays or without threads (exclusive or:
from 0, numpy's default, when threads take part).  Otherwise see C113_reductions_violated and C09_xor_violated. -/
theorem C113_bit_reductions_partial (F : FloatUnit) (avx2 : Bool) (stop : Option Nat) (otherSel : Hook → Bool) (otherKernel : Key → Bool)
    (hist : List Call) (fn : BinFn) (hfn : fn ∈ [BinFn.bitwiseAnd, .bitwiseOr, .bitwiseXor]) (d : Nat) (t : DT) (hd : elemType d = some t)
    (np : Obj → Nat → BitVec t.bits → BitVec t.bits → BitVec t.bits)
    (hnp : ∀ d', elemType d' = some t → ∀ x y, IntResult t x y (np (objOf fn) d' x y) fn)
    (w : World) (sr : Int) (xs : List (BitVec t.bits)) (init : BitVec t.bits) (hn : 0 < xs.length)
    (hs : (sr = 1 ∧ (fn = .bitwiseXor → init = 0)) ∨ xs.length < 65536 ∨ threadsNow hist = false) (r)
    (hcall : CallRed F (run (config F avx2 stop otherSel otherKernel) hist) (objOf fn) d t np w sr xs init r) :
    ∃ v, r = some v ∧ BitReduction init xs v fn := by
  rcases red_cases hd hcall rfl with ⟨d', hd', rfl⟩ | ⟨e, o, hm, he, _⟩ | ⟨d', o, hd', hm, hbig, hthr, _, req, mw, zz, sched, hret, rfl⟩
  · exact ⟨_, rfl, (bit_reduction hfn _ (hnp d' hd')).2.2 init xs⟩
  · rw [(opOfBits hfn hm F t).1] at he; cases he
  · obtain ⟨h1, h2, h3⟩ := bit_reduction hfn _ (hnp d' hd')
    rcases hs with ⟨rfl, h0⟩ | h | h
    · rw [(opOfBits hfn hm F t).2]
      exact ⟨_, C09_numpy_contiguous_partial _ h1 none xs init (h2 init h0) hn req mw zz sched hret, h3 init xs⟩
    · exact absurd h (Nat.not_lt.2 hbig)
    · rw [hthr] at h; cases h

/-! ### Booleans -/

theorem foldl_image {α β : Type} (b : α → β) (f : β → β → β) (g : α → α → α) (h : ∀ x y, f (b x) (b y) = b (g x y)) (xs : List α) (init : α) :
    (xs.map b).foldl f (b init) = b (xs.foldl g init) := by
  induction xs generalizing init with
  | nil => rfl
  | cons x xs ih => rw [List.map_cons, List.foldl_cons, List.foldl_cons, h, ih]

private theorem blockPhase_image {α β : Type} (b : α → β) (f : β → β → β) (g : α → α → α) (h : ∀ x y, f (b x) (b y) = b (g x y)) (xs : List α) (s : α)
    (calls : List (Nat × Nat)) :
    blockPhase (fun l s => some (numpyReduce f l s)) (xs.map b) (b s) calls = fun i => (blockPhase (fun l s => some (numpyReduce g l s)) xs s calls i).map b := by
  unfold blockPhase
  have main : ∀ (A : Buffer β) (B : Buffer α), A = (fun i => (B i).map b) →
      calls.foldl (fun buf c => fun i => if i = c.1 / Work.CHUNK then some (numpyReduce f (((xs.map b).drop c.1).take c.2) (b s)) else buf i) A =
      fun i => (calls.foldl (fun buf c => fun i => if i = c.1 / Work.CHUNK then some (numpyReduce g ((xs.drop c.1).take c.2) s) else buf i) B i).map b := by
    induction calls with
    | nil => intro A B h; exact h
    | cons c cs ih =>
      intro A B hAB
      rw [List.foldl_cons, List.foldl_cons]
      refine ih _ _ ?_
      funext i
      split
      · rw [← List.map_drop, ← List.map_take]
        exact congrArg some (foldl_image b f g h _ s)
      · rw [hAB]
  exact main _ _ rfl

private theorem mapM_image {α β : Type} (b : α → β) (f : Nat → Option α) (l : List Nat) :
    l.mapM (fun i => (f i).map b) = (l.mapM f).map (List.map b) := by
  induction l with
  | nil => rfl
  | cons x l ih =>
    rw [List.mapM_cons, List.mapM_cons, ih]
    cases f x <;> cases l.mapM f <;> rfl

theorem threadedNumpy_image {α β : Type} (b : α → β) (f : β → β → β) (g : α → α → α) (h : ∀ x y, f (b x) (b y) = b (g x y))
    (special : Option α) (ratio : Int) (xs : List α) (init : α) (calls : List (Nat × Nat)) :
    threadedNumpy f (special.map b) ratio (xs.map b) (b init) calls = (threadedNumpy g special ratio xs init calls).map b := by
  unfold threadedNumpy
  simp only [List.length_map]
  have hs : (special.map b).getD (b init) = b (special.getD init) := by cases special <;> rfl
  rw [hs, blockPhase_image b f g h]
  have hc : (fun i : Nat => if 0 ≤ (i : Int) * ratio ∧ (i : Int) * ratio < (chunks xs.length : Int) then
        (blockPhase (fun l s => some (numpyReduce g l s)) xs (special.getD init) calls ((i : Int) * ratio).toNat).map b else none) =
      fun i : Nat => ((if 0 ≤ (i : Int) * ratio ∧ (i : Int) * ratio < (chunks xs.length : Int) then
        blockPhase (fun l s => some (numpyReduce g l s)) xs (special.getD init) calls ((i : Int) * ratio).toNat else none)).map b := by
    funext i; split <;> rfl
  rw [hc, mapM_image]
  generalize (List.range (chunks xs.length)).mapM (m := Option) (β := α) _ = q
  cases q with
  | none => rfl
  | some cells => exact congrArg some (foldl_image b f g h cells init)

/-- The boolean function and start value of a reduction. -/
private theorem bool_reduction {fn : BinFn} {o : Hooks.Op} (hm : (⟨.binary, objOf fn, o⟩ : Hooks.Entry) ∈ binaryMapping)
    (hfn : (boolFn false false fn).isSome = true) :
    ∃ (g : Bool → Bool → Bool) (special : Option Bool), (∀ x y, boolFn x y fn = some (g x y)) ∧ AssocComm g ∧
      reduceStartVal o .bool 8 = special.map boolElem ∧ (∀ init, (fn = .bitwiseXor → init = false) → GoodStart g special init) ∧
      ∀ init xs, logicReduction init xs fn = some (xs.foldl g init) := by
  rw [opOf hm]
  have ao : AssocComm or := ⟨Bool.or_assoc, Bool.or_comm⟩
  have aa : AssocComm and := ⟨Bool.and_assoc, Bool.and_comm⟩
  have lo : ∀ (init : Bool) (xs : List Bool), some ((init :: xs).any id) = some (xs.foldl or init) := fun init xs => by rw [fold_or]; rfl
  have la : ∀ (init : Bool) (xs : List Bool), some ((init :: xs).all id) = some (xs.foldl and init) := fun init xs => by rw [fold_and]; rfl
  cases fn <;> simp only [boolFn, Option.isSome_none, Bool.false_eq_true] at hfn
  · exact ⟨or, some false, fun _ _ => rfl, ao, rfl, fun i _ => by cases i <;> rfl, lo⟩
  · exact ⟨and, some true, fun _ _ => rfl, aa, rfl, fun i _ => by cases i <;> rfl, la⟩
  · exact ⟨and, none, fun _ _ => rfl, aa, rfl, fun i _ => by cases i <;> rfl, la⟩
  · exact ⟨or, none, fun _ _ => rfl, ao, rfl, fun i _ => by cases i <;> rfl, lo⟩
  · exact ⟨and, none, fun _ _ => rfl, aa, rfl, fun i _ => by cases i <;> rfl, la⟩
  · exact ⟨or, none, fun _ _ => rfl, ao, rfl, fun i _ => by cases i <;> rfl, lo⟩
  · exact ⟨and, none, fun _ _ => rfl, aa, rfl, fun i _ => by cases i <;> rfl, la⟩
  · exact ⟨or, none, fun _ _ => rfl, ao, rfl, fun i _ => by cases i <;> rfl, lo⟩
  · exact ⟨xor, none, fun _ _ => rfl, ⟨Bool.xor_assoc, Bool.xor_comm⟩, rfl, fun i h => by rw [h rfl]; rfl, fun init xs => by rw [fold_xor]; rfl⟩

/-- **C113**: reductions of booleans stored as 0 and 1, after any sequence of calls: any, all, odd number, as numpy defines them for the
function; under the conditions of C113_reductions_partial. -/
theorem C113_bool_reductions_partial (F : FloatUnit) (avx2 : Bool) (stop : Option Nat) (otherSel : Hook → Bool) (otherKernel : Key → Bool)
    (hist : List Call) (fn : BinFn) (np : Obj → Nat → BitVec 8 → BitVec 8 → BitVec 8)
    (hnp : ∀ d', elemType d' = some .bool → ∀ x y, ∃ r, boolFn x y fn = some r ∧ np (objOf fn) d' (boolElem x) (boolElem y) = boolElem r)
    (w : World) (sr : Int) (xs : List Bool) (init : Bool) (hn : 0 < xs.length) (hz : Layed sr xs)
    (hs : (sr = 1 ∧ (fn = .bitwiseXor → init = false)) ∨ xs.length < 65536 ∨ threadsNow hist = false ∨
      (enabledNow hist = true ∧ fn ∈ [BinFn.add, .multiply, .minimum, .maximum])) (r)
    (hcall : CallRed F (run (config F avx2 stop otherSel otherKernel) hist) (objOf fn) 0 .bool np w sr (xs.map boolElem) (boolElem init) r) :
    ∃ v, r = some (boolElem v) ∧ logicReduction init xs fn = some v := by
  have hsome : (boolFn false false fn).isSome = true := by
    obtain ⟨r, hr, _⟩ := hnp 0 rfl false false
    rw [hr]; rfl
  have hmap : ∃ o, (⟨.binary, objOf fn, o⟩ : Hooks.Entry) ∈ binaryMapping := by
    clear hcall hnp hs
    cases fn <;> simp only [boolFn, Option.isSome_none, Bool.false_eq_true] at hsome <;>
      first
        | exact ⟨.ADD, by decide⟩ | exact ⟨.MUL, by decide⟩ | exact ⟨.MIN, by decide⟩ | exact ⟨.MAX, by decide⟩
        | exact ⟨.LOGICAL_AND, by decide⟩ | exact ⟨.LOGICAL_OR, by decide⟩ | exact ⟨.BITWISE_AND, by decide⟩
        | exact ⟨.BITWISE_OR, by decide⟩ | exact ⟨.BITWISE_XOR, by decide⟩
  have hser : ∀ d', elemType d' = some .bool →
      ∃ v, numpyReduce (np (objOf fn) d') (xs.map boolElem) (boolElem init) = boolElem v ∧ logicReduction init xs fn = some v := by
    intro d' hd'
    obtain ⟨o, hm⟩ := hmap
    obtain ⟨g, special, hg, _, _, _, hl⟩ := bool_reduction hm hsome
    refine ⟨xs.foldl g init, foldl_image boolElem _ g (fun x y => ?_) xs init, hl init xs⟩
    obtain ⟨r, hr, he⟩ := hnp d' hd' x y
    rw [hg] at hr; cases hr; exact he
  rcases red_cases rfl hcall (List.length_map _) with ⟨d', hd', rfl⟩ | ⟨e, o, hm, he, hb, hr⟩ | ⟨d', o, hd', hm, hbig, hthr, hno, req, mw, zz, sched, hret, rfl⟩
  · obtain ⟨v, h1, h2⟩ := hser d' hd'
    exact ⟨v, congrArg some h1, h2⟩
  · have hk : ReduceKernel F fn .bool e (reduceStartVal o .bool e.bits) := ⟨o, hm, he, rfl⟩
    have hl : layoutOf sr = .zero → ∀ x ∈ xs, ∀ y ∈ xs, x = y := by
      intro h
      refine hz ?_
      unfold layoutOf at h
      split at h
      · cases h
      · split at h
        · assumption
        · cases h
    have hspec : ∀ v, boolReduction init xs fn = some v → logicReduction init xs fn = some v := by
      intro v hv
      cases fn <;> simp only [boolReduction, reduceCtorEq] at hv <;> exact hv
    rcases hr with rfl | ⟨req, mw, zz, sched, hret, rfl⟩
    · obtain ⟨sched, hret⟩ := returns_alone xs.length 3 3 0
      obtain ⟨_, v, h1, h2, _⟩ := C54_booleans F fn e _ hk (layoutOf sr) xs init hn hl 3 3 0 sched hret
      exact ⟨v, h2, hspec v h1⟩
    · obtain ⟨_, v, h1, _, h2⟩ := C54_booleans F fn e _ hk (layoutOf sr) xs init hn hl req mw zz sched hret
      exact ⟨v, h2, hspec v h1⟩
  · obtain ⟨g, special, hg, ha, hsp, hgs, hl⟩ := bool_reduction hm hsome
    have him : ∀ x y, np (objOf fn) d' (boolElem x) (boolElem y) = boolElem (g x y) := by
      intro x y
      obtain ⟨r, hr, he⟩ := hnp d' hd' x y
      rw [hg] at hr; cases hr; exact he
    have hsr : sr = 1 ∧ (fn = .bitwiseXor → init = false) := by
      rcases hs with h | h | h | ⟨h, h'⟩
      · exact h
      · exact absurd h (Nat.not_lt.2 hbig)
      · rw [hthr] at h; cases h
      · exfalso
        rcases hno with hn | hn
        · rw [h] at hn; cases hn
        · rw [opOf hm] at hn
          simp only [List.mem_cons, List.not_mem_nil, or_false] at h'
          rcases h' with rfl | rfl | rfl | rfl <;> cases hn
    obtain ⟨rfl, hx⟩ := hsr
    have key : threadedNumpy (np (objOf fn) d') (reduceStartVal o .bool 8) 1 (xs.map boolElem) (boolElem init)
        (Work.kernelCalls (ufuncItem xs.length req mw zz) (Work.exec (ufuncItem xs.length req mw zz) sched)) = some (boolElem (reduceSpec g init xs)) := by
      rw [hsp, threadedNumpy_image boolElem _ g him, C09_numpy_contiguous_partial g ha special xs init (hgs init hx) hn req mw zz sched hret]
      rfl
    exact ⟨_, key, hl init xs⟩

private theorem sub_wraps (x y : BitVec 64) : Wraps .i64 (intVal .i64 x - intVal .i64 y) (x - y) :=
  wraps_bmod .i64 _ _ (C16_sub 64 x y)

/-- C113 is false for subtract.reduce whether pnumpy is enabled or not: after `initialize` has run to its end, with threads on (and no thread just taking an
item), `np.subtract.reduce` of the 65537 int64 `1, 0, 0, …` is -3, not 1, under every schedule: every block starts from the 1 again. -/
theorem C113_subtract_reduction_violated (F : FloatUnit) (otherSel : Hook → Bool) (otherKernel : Key → Bool) (hist : List Call)
    (hinit : Call.doInit ∈ hist) (hthr : threadsNow hist = true) (d : Nat) (hd : elemType d = some .i64) (hd' : d < 13)
    (np : Obj → Nat → BitVec 64 → BitVec 64 → BitVec 64)
    (hnp : ∀ d', elemType d' = some .i64 → ∀ x y, IntResult .i64 x y (np (objOf .subtract) d' x y) .subtract)
    (w : World) (hlock : w.lockHeld = false) (r)
    (hcall : CallRed F (run (config F true none otherSel otherKernel) hist) (objOf .subtract) d .i64 np w 1 (List.replicate 65536 (0 : BitVec 64)) (1 : BitVec 64) r) :
    r = some (-3#64) ∧ reduceSpec (fun x y : BitVec 64 => x - y) 1 (List.replicate 65536 0) = 1 := by
  constructor
  swap
  · unfold reduceSpec
    generalize 65536 = n
    induction n with
    | zero => rfl
    | succ n ih => rw [List.replicate_succ, List.foldl_cons]; exact ih
  obtain ⟨hi, _⟩ := run_inv (config F true none otherSel otherKernel) hist
  rw [if_pos ⟨hinit, rfl⟩] at hi
  have hset := atop_run (config F true none otherSel otherKernel) hist
  have hdm : d ∈ dtypes := by
    have : ∀ d, d < 13 → d ∈ dtypes := by decide
    exact this d hd'
  have hat : atopDT (atype d) = some .i64 := by rw [← elem_atop _ hdm, hd]
  have hmem : ((⟨.binary, objOf .subtract, .SUB⟩, d) : Hook) ∈ (config F true none otherSel otherKernel).hooks := by
    show _ ∈ allHooks.filter (selects F otherSel)
    refine List.mem_filter.2 ⟨?_, ?_⟩
    · simp only [allHooks, List.mem_append, List.mem_flatMap, List.mem_map]
      exact Or.inl (Or.inl ⟨_, Or.inl (Or.inl (by decide)), d, hdm, rfl⟩)
    · simp only [selects, hat]
      rfl
  have hloop := hi.loops (objOf .subtract) d
  have hnone : ∀ k, (run (config F true none otherSel otherKernel) hist).loops (objOf .subtract) d = .stub k →
      reduceFunc F k .i64 = none ∧ reduceStartVal k.op .i64 64 = none ∧
      ∀ o' d', (run (config F true none otherSel otherKernel) hist).old k = some (.numpy o' d') → o' = objOf .subtract ∧ elemType d' = some .i64 := by
    intro k hl
    rw [hl] at hloop
    split at hloop
    · rename_i h' hlast
      obtain ⟨hm, ho, hdd⟩ := lastHook_some hlast
      have hmem' := allHooks_mem h' ((hooks_sublist _).subset hm)
      have hent := bin_unique .subtract _ (bin_entries .subtract _ hmem'.1 ho).2 ⟨.binary, objOf .subtract, .SUB⟩ (by decide) ho rfl
      cases hloop
      refine ⟨?_, ?_, ?_⟩
      · unfold reduceFunc Hook.key
        split
        · rw [hent]; rfl
        · rfl
      · unfold Hook.key; rw [hent]; rfl
      · intro o' d' hold
        obtain ⟨d2, hd2, hat2, hl2⟩ := saved_numpy (hooks_sublist _) hi (single_bin .subtract) hm ho hold
        injection hl2 with e1 e2
        subst e1 e2
        exact ⟨rfl, by rw [elem_atop _ hd2, hat2, hdd]; exact hat⟩
    · cases hloop
  have hlen : (List.replicate 65536 (0 : BitVec 64)).length = 65536 := List.length_replicate
  have hitem : (worldOf (run (config F true none otherSel otherKernel) hist) w).getsItem (List.replicate 65536 (0 : BitVec 64)).length = true := by
    have h1 : (run (config F true none otherSel otherKernel) hist).noThreading = false := by
      have := hset.2.1
      rw [hthr] at this
      simpa using this
    rw [hlen]
    unfold World.getsItem
    rw [if_neg]
    · show (!w.lockHeld) = true
      rw [hlock]; rfl
    · rintro (h | h)
      · exact absurd h (by decide)
      · rw [show (worldOf (run (config F true none otherSel otherKernel) hist) w).noThreading = false from h1] at h
        cases h
  have hsub : ∀ f : BitVec 64 → BitVec 64 → BitVec 64, (∀ x y, IntResult .i64 x y (f x y) .subtract) → f = fun x y => x - y := by
    intro f hf
    funext x y
    refine wraps_unique (t := .i64) rfl (hf x y) ?_
    exact sub_wraps x y
  cases hcall with
  | unhooked o' d' hl =>
    rw [hl] at hloop
    split at hloop
    · cases hloop
    · rename_i hlast
      unfold lastHook at hlast
      rw [List.find?_eq_none] at hlast
      have := hlast _ (List.mem_reverse.2 hmem)
      simp at this
  | kernelSerial k e hl hw hat he hb => rw [(hnone k hl).1] at he; cases he
  | kernelThreaded k e hl hw hat he hb mt sched hret => rw [(hnone k hl).1] at he; cases he
  | savedSerial k o' d' hl hw hno ho => exact absurd (hitem.symm.trans hw) (by decide)
  | savedThreaded k o' d' hl hw hno ho mt sched hret =>
    obtain ⟨_, h2, h3⟩ := hnone k hl
    obtain ⟨rfl, hd2⟩ := h3 o' d' ho
    have hf := hsub _ (hnp d' hd2)
    have key : ∀ m, m = 65536 → (Work.exec (ufuncItem m mt w.maxWakeup w.zigzag) sched).pc 0 = .returned →
        threadedNumpy (np (objOf .subtract) d') (reduceStartVal k.op .i64 64) 1 (List.replicate 65536 (0 : BitVec 64)) 1
          (Work.kernelCalls (ufuncItem m mt w.maxWakeup w.zigzag) (Work.exec (ufuncItem m mt w.maxWakeup w.zigzag) sched)) = some (-3#64) := by
      rintro m rfl hret
      rw [h2, hf, threadedNumpy_const _ _ _ (by decide) _ (by decide) _ (blockCalls 65536 mt w.maxWakeup w.zigzag sched hret)]
      decide
    exact key _ hlen hret

/-- Case: all of 100000 booleans, one of 100000 int32 bits, with and without pnumpy, when pnumpy has no kernel for it. -/
example (F : FloatUnit) (xs : List Bool) (hx : xs.length = 100000) (w : World) :
    ∃ v, CallRed F (run (config F true none (fun _ => false) (fun _ => false)) [.atopDisable, .doInit]) (objOf .logicalAnd) 0 .bool
      (fun _ _ x y => x &&& y) w 1 (xs.map boolElem) (boolElem true) (some (boolElem v)) ∧ v = xs.all id := by
  obtain ⟨r, hr⟩ := C113_reduction_finishes F (config F true none (fun _ => false) (fun _ => false)) [.atopDisable, .doInit] .logicalAnd 0 .bool
    (fun _ _ x y => x &&& y) w 1 (xs.map boolElem) (boolElem true)
  obtain ⟨v, rfl, hv⟩ := C113_bool_reductions_partial F true none _ _ [.atopDisable, .doInit] .logicalAnd (fun _ _ x y => x &&& y)
    (fun _ _ x y => ⟨x && y, rfl, by cases x <;> cases y <;> decide⟩) w 1 xs true (lt_of_lt_of_eq (by decide) hx.symm) (by intro h; cases h)
    (Or.inl ⟨rfl, by intro h; cases h⟩) r hr
  exact ⟨v, hr, by simpa [logicReduction] using hv.symm⟩

example (F : FloatUnit) (xs : List (BitVec 32)) (hx : xs.length = 100000) (w : World) :
    ∃ v, CallRed F (run (config F true none (fun _ => false) (fun _ => false)) [.doInit]) (objOf .bitwiseOr) 5 .i32
      (fun _ _ x y => x ||| y) w 1 xs 0 (some v) ∧ v.getLsbD 3 = (((0 : BitVec 32) :: xs).any fun x => x.getLsbD 3) := by
  obtain ⟨r, hr⟩ := C113_reduction_finishes F (config F true none (fun _ => false) (fun _ => false)) [.doInit] .bitwiseOr 5 .i32
    (fun _ _ x y => x ||| y) w 1 xs 0
  obtain ⟨v, rfl, hv⟩ := C113_bit_reductions_partial F true none _ _ [.doInit] .bitwiseOr (by decide) 5 .i32 rfl (fun _ _ x y => x ||| y)
    (fun _ _ x y i hi => BitVec.getLsbD_or) w 1 xs 0 (lt_of_lt_of_eq (by decide) hx.symm) (Or.inl ⟨rfl, by intro h; cases h⟩) r hr
  exact ⟨v, hr, hv 3 (by decide)⟩

/-- Case: the wrong difference after `initialize`, `atop_disable`. -/
example (F : FloatUnit) (w : World) (hw : w.lockHeld = false) :
    CallRed F (run (config F true none (fun _ => false) (fun _ => false)) [.atopDisable, .doInit]) (objOf .subtract) 9 .i64 (fun _ _ x y => x - y) w 1
      (List.replicate 65536 (0 : BitVec 64)) (1 : BitVec 64) (some (-3#64)) := by
  obtain ⟨r, hr⟩ := C113_reduction_finishes F (config F true none (fun _ => false) (fun _ => false)) [.atopDisable, .doInit] .subtract 9 .i64
    (fun _ _ x y => x - y) w 1 (List.replicate 65536 (0 : BitVec 64)) (1 : BitVec 64)
  have := C113_subtract_reduction_violated F _ _ [.atopDisable, .doInit] (by decide) rfl 9 rfl (by decide) (fun _ _ x y => x - y)
    (fun _ _ x y => sub_wraps x y) w hw r hr
  rw [this.1] at hr
  exact hr

end Pnumpy.Props
