import Verif.Proofs.Reduce
import Verif.Props.Work
import Verif.Model.IntOps
/-
Property theorems C09, C11: reductions.
-/
namespace Pnumpy.Props
open Pnumpy.Spec Pnumpy.Reduce Pnumpy.IntOps
variable {α : Type}

/-- **C11**: the vectorised reduce (`w` lanes, contiguous, strided or constant input) terminates, reads
only the array (an out-of-range read would give `none`) and combines every element once with the
start value, for every length. -/
theorem C11_covers_all (op : α → α → α) (h : AssocComm op) (w : Nat) (hw : 0 < w) (lay : Layout)
    (xs : List α) (start : α) (hz : lay = .zero → ∀ x ∈ xs, xs[0]? = some x) :
    reduceFast op w lay xs start = some (reduceSpec op start xs) := by
  rw [reduceFast_eq h hw lay xs start hz, fold_eq_spec h]

/-- Lane order does not matter for these, the operations of the reduce table. -/
theorem assocComm_add (k : Nat) : AssocComm (fun x y : BitVec k => x + y) :=
  ⟨BitVec.add_assoc, BitVec.add_comm⟩
theorem assocComm_mul (k : Nat) : AssocComm (fun x y : BitVec k => x * y) :=
  ⟨BitVec.mul_assoc, BitVec.mul_comm⟩
theorem assocComm_or (k : Nat) : AssocComm (fun x y : BitVec k => x ||| y) :=
  ⟨BitVec.or_assoc, BitVec.or_comm⟩
theorem assocComm_and (k : Nat) : AssocComm (fun x y : BitVec k => x &&& y) :=
  ⟨BitVec.and_assoc, BitVec.and_comm⟩
theorem assocComm_xor (k : Nat) : AssocComm (fun x y : BitVec k => x ^^^ y) :=
  ⟨BitVec.xor_assoc, BitVec.xor_comm⟩

theorem sminOp_toInt {k : Nat} (x y : BitVec k) : (sminOp x y).toInt = min x.toInt y.toInt := by
  unfold sminOp; rw [BitVec.slt_eq_decide]
  by_cases h : x.toInt < y.toInt
  · simp [h]; omega
  · simp [h]; omega
theorem smaxOp_toInt {k : Nat} (x y : BitVec k) : (smaxOp x y).toInt = max x.toInt y.toInt := by
  unfold smaxOp; rw [BitVec.slt_eq_decide]
  by_cases h : y.toInt < x.toInt
  · simp [h]; omega
  · simp [h]; omega
theorem uminOp_toNat {k : Nat} (x y : BitVec k) : (uminOp x y).toNat = min x.toNat y.toNat := by
  unfold uminOp; rw [BitVec.ult_eq_decide]
  by_cases h : x.toNat < y.toNat
  · simp [h]; omega
  · simp [h]; omega
theorem umaxOp_toNat {k : Nat} (x y : BitVec k) : (umaxOp x y).toNat = max x.toNat y.toNat := by
  unfold umaxOp; rw [BitVec.ult_eq_decide]
  by_cases h : y.toNat < x.toNat
  · simp [h]; omega
  · simp [h]; omega

theorem assocComm_smin (k : Nat) : AssocComm (sminOp (k := k)) := by
  constructor <;> intros <;> apply BitVec.eq_of_toInt_eq <;> simp only [sminOp_toInt] <;> omega
theorem assocComm_smax (k : Nat) : AssocComm (smaxOp (k := k)) := by
  constructor <;> intros <;> apply BitVec.eq_of_toInt_eq <;> simp only [smaxOp_toInt] <;> omega
theorem assocComm_umin (k : Nat) : AssocComm (uminOp (k := k)) := by
  constructor <;> intros <;> apply BitVec.eq_of_toNat_eq <;> simp only [uminOp_toNat] <;> omega
theorem assocComm_umax (k : Nat) : AssocComm (umaxOp (k := k)) := by
  constructor <;> intros <;> apply BitVec.eq_of_toNat_eq <;> simp only [umaxOp_toNat] <;> omega

/-- Non-vacuity of C11: int32 sum, 8 lanes, 37 elements. -/
example : reduceFast (fun x y : BitVec 32 => x + y) 8 .contiguous ((List.range 37).map (BitVec.ofNat 32)) 5
    = some 671#32 := by decide +kernel

/-- **C11 violated** for float32 `sum`/`prod`: for *every* contiguous array of at least 16 elements the
horizontal step reads 8 doubles out of a register holding 4. -/
theorem C11_upcast_violated {β : Type} (up : α → β) (down : β → α) (op : β → β → β) (xs : List α)
    (start : α) (hn : 16 ≤ xs.length) :
    reduceFastUpcast up down op .contiguous xs start = none := by
  unfold reduceFastUpcast
  simp only [ge_iff_le, hn, if_true]
  rw [loadVec_eq (show 0 + 8 ≤ xs.length by omega), loadVec_eq (show 8 + 8 ≤ xs.length by omega)]
  simp only
  have key : ∀ (f p : Nat) (a b c d : List β), f = 16 * (xs.length / 16) - p → a.length ≤ 4 →
      ∀ r, upcastLoop up op xs (16 * (xs.length / 16)) p a b c d = some r → r.1.length ≤ 4 := by
    intro f
    induction f using Nat.strongRecOn with
    | _ f ih =>
      intro p a b c d hf ha r hr
      rw [upcastLoop] at hr
      split at hr
      · rename_i hp
        split at hr
        · rename_i u v hu hv
          refine ih (16 * (xs.length / 16) - (p + 16)) (by omega) (p + 16) _ _ _ _ rfl ?_ r hr
          simp
        · cases hr
      · cases hr; exact ha
  split
  · rename_i m10 m11 m12 m13 p hr
    have h4 := key _ 16 _ _ _ _ rfl (by simp) _ hr
    simp only at h4
    rw [horizontal_oob _ 8 (by simp; omega)]
    rfl
  · rfl

/-- Below 16 elements the float32 path is right. -/
theorem C11_upcast_short_partial {β : Type} (up : α → β) (down : β → α) (op : β → β → β)
    (h : AssocComm op) (xs : List α) (start : α) (hn : xs.length < 16) :
    reduceFastUpcast up down op .contiguous xs start =
      some (down (reduceSpec op (up start) (xs.map up))) := by
  unfold reduceFastUpcast
  rw [if_neg (by omega)]
  have := fold_eq_spec h (up start) (xs.map up)
  unfold fold at this
  rw [this]

/-- With a strided or constant float32 input the widening reduction is right for every length. -/
theorem C11_upcast_strided_partial {β : Type} (up : α → β) (down : β → α) (op : β → β → β)
    (h : AssocComm op) (xs : List α) (start : α) (lay : Layout) (hlay : lay ≠ .contiguous) (hz : lay = .zero → ∀ x ∈ xs, xs[0]? = some x) :
    reduceFastUpcast up down op lay xs start = some (down (reduceSpec op (up start) (xs.map up))) := by
  have hfold : ∀ s, (xs.map up).foldl (fun acc x => op x acc) s = reduceSpec op s (xs.map up) := by
    intro s
    have := fold_eq_spec h s (xs.map up)
    unfold fold at this
    exact this
  cases lay with
  | contiguous => exact absurd rfl hlay
  | strided => simp only [reduceFastUpcast, hfold]
  | zero =>
    simp only [reduceFastUpcast]
    have hz' := hz rfl
    rw [← hfold]
    cases xs with
    | nil => rfl
    | cons y t =>
      have hall : ∀ x ∈ (y :: t), x = y := fun x hx => by
        have := hz' x hx
        simpa using this.symm
      have key : ∀ (l : List α) (s : β) (ks : List Nat), ks.length = l.length → (∀ x ∈ l, x = y) →
          ks.foldlM (fun acc _ => ((y :: t)[0]?).map fun x => op (up x) acc) s = some ((l.map up).foldl (fun acc x => op x acc) s) := by
        intro l
        induction l with
        | nil => intro s ks hk _; cases ks with
          | nil => rfl
          | cons _ _ => cases hk
        | cons z l ih =>
          intro s ks hk hl
          cases ks with
          | nil => cases hk
          | cons k ks =>
            have hzy := hl z (List.mem_cons_self ..)
            simp only [List.foldlM_cons, List.map_cons, List.foldl_cons]
            rw [hzy]
            exact ih _ ks (by simpa using hk) (fun x hx => hl x (List.mem_cons_of_mem _ hx))
      rw [key (y :: t) (up start) (List.range (y :: t).length) (by simp) hall]
      rfl

/-- Non-vacuity: a constant input of length 40 and a strided one of length 3. -/
example : reduceFastUpcast (BitVec.zeroExtend 64) (BitVec.truncate 32) (fun x y : BitVec 64 => x + y) .zero (List.replicate 40 (3#32)) 5 = some 125#32 ∧
    reduceFastUpcast (BitVec.zeroExtend 64) (BitVec.truncate 32) (fun x y : BitVec 64 => x + y) .strided [1#32, 2, 3] 5 = some 11#32 := by decide +kernel

/-! ### C09 -/

/-- The kernel calls of a returned threaded call are exactly the blocks. -/
theorem blockCalls (n : Nat) (req : Int) (mw zz : Nat) (sched : List Nat)
    (hret : (Work.exec (ufuncItem n req mw zz) sched).pc 0 = .returned) :
    BlockCalls n (Work.kernelCalls (ufuncItem n req mw zz)
      (Work.exec (ufuncItem n req mw zz) sched)) := by
  have honce := C01_exactly_once n req mw zz sched hret
  have hbs : (ufuncItem n req mw zz).blockSize = 16384 := rfl
  constructor
  · intro c hc
    obtain ⟨b, hb, rfl⟩ := List.mem_map.mp hc
    have hlt := mem_log_lt hb
    refine ⟨b, rfl, ?_, ?_⟩
    · have := Work.blockLen_generic n req mw zz b (by rw [Work.blockLast_generic]; exact hlt)
      rw [this.1, hbs]
      unfold Work.CHUNK
      omega
    · rw [hbs]; omega
  · intro b hb
    have h1 := honce (Work.CHUNK * b)
    rw [if_pos hb] at h1
    have hpos : 0 < timesProcessed (Work.kernelCalls (ufuncItem n req mw zz)
      (Work.exec (ufuncItem n req mw zz) sched)) (Work.CHUNK * b) := by omega
    obtain ⟨c, hc, hcov⟩ := List.countP_pos_iff.mp hpos
    refine ⟨c, hc, ?_⟩
    obtain ⟨b', hb', rfl⟩ := List.mem_map.mp hc
    have := (covers_iff (mem_log_lt hb')).mp hcov
    show (ufuncItem n req mw zz).blockSize * b' = Work.CHUNK * b
    rw [hbs, this.2]
    unfold Work.CHUNK
    omega

/-- The start value of the blocks (`special`, or the reduction's own start value) changes nothing when it is combined with
the reduction's start value: the identity of the operation (`add`, `multiply`), or the start value itself for an operation
that is idempotent on it (`minimum`, `maximum`, `and`, `or`). -/
def GoodStart (op : α → α → α) (special : Option α) (init : α) : Prop := op init (special.getD init) = init

theorem two_level (op : α → α → α) (h : AssocComm op) (special : Option α) (init : α) (hs : GoodStart op special init)
    (ls : List (List α)) :
    fold op init (ls.map (fold op (special.getD init))) = fold op init ls.flatten :=
  fold_flatten_start h init hs ls

theorem blocks_flatten (xs : List α) (hn : 0 < xs.length) :
    ((List.range (chunks xs.length)).map (blockOf xs)).flatten = xs := by
  rw [fold_blocks_assoc, take_chunks xs hn]

/-- **C09** (vectorised reduce functions): the threaded reduction returns the same value as the serial
one, for every length, layout, start value, worker count and schedule. -/
theorem C09_threaded_equals_serial (op : α → α → α) (h : AssocComm op) (w : Nat) (hw : 0 < w)
    (lay : Layout) (special : Option α) (xs : List α) (init : α) (hs : GoodStart op special init)
    (hn : 0 < xs.length) (hz : lay = .zero → ∀ x ∈ xs, ∀ y ∈ xs, x = y)
    (req : Int) (mw zz : Nat) (sched : List Nat)
    (hret : (Work.exec (ufuncItem xs.length req mw zz) sched).pc 0 = .returned) :
    threadedFast op w lay special xs init
      (Work.kernelCalls (ufuncItem xs.length req mw zz)
        (Work.exec (ufuncItem xs.length req mw zz) sched)) =
      reduceFast op w lay xs init ∧
    reduceFast op w lay xs init = some (reduceSpec op init xs) := by
  have hcalls := blockCalls xs.length req mw zz sched hret
  have hz' : ∀ l : List α, (∀ x ∈ l, x ∈ xs) → lay = .zero → ∀ x ∈ l, l[0]? = some x := by
    intro l hl hlay x hx
    cases l with
    | nil => cases hx
    | cons y l => simp [hz hlay y (hl y (by simp)) x (hl x hx)]
  have hserial := C11_covers_all op h w hw lay xs init (hz' xs (fun x hx => hx))
  refine ⟨?_, hserial⟩
  rw [hserial]
  unfold threadedFast
  simp only
  rw [mapM_range_some (h := fun b => fold op (special.getD init) (blockOf xs b))]
  · simp only
    have hc : Layout.contiguous = .zero → ∀ x ∈ (List.range (chunks xs.length)).map
        (fun b => fold op (special.getD init) (blockOf xs b)),
        ((List.range (chunks xs.length)).map
          (fun b => fold op (special.getD init) (blockOf xs b)))[0]? = some x := fun h => by cases h
    rw [reduceFast_eq h hw .contiguous _ init hc, ← fold_eq_spec h]
    have hm : (List.range (chunks xs.length)).map (fun b => fold op (special.getD init) (blockOf xs b))
        = ((List.range (chunks xs.length)).map (blockOf xs)).map (fold op (special.getD init)) := by
      rw [List.map_map]; rfl
    rw [hm, two_level op h special init hs, blocks_flatten xs hn]
  · intro b hb
    rw [blockPhase_all _ _ _ _ hcalls b hb hn]
    refine reduceFast_eq h hw lay _ _ (hz' _ ?_)
    intro x hx
    exact List.mem_of_mem_drop (List.mem_of_mem_take hx)

/-- The reduce table's integer entries meet the hypotheses of C09:
sum with start 0, product with start 1, min/max with the original start value. -/
example (k : Nat) (s : BitVec k) : GoodStart (fun x y : BitVec k => x + y) (some 0) s := BitVec.add_zero s
example (k : Nat) (s : BitVec k) : GoodStart (fun x y : BitVec k => x * y) (some 1) s := BitVec.mul_one s
example (k : Nat) (s : BitVec k) : GoodStart (sminOp (k := k)) none s := by unfold GoodStart sminOp; simp
example (k : Nat) (s : BitVec k) : GoodStart (uminOp (k := k)) none s := by unfold GoodStart uminOp; simp
example (k : Nat) (s : BitVec k) : GoodStart (fun x y : BitVec k => x ||| y) none s := BitVec.or_self
/-- bool sum is `OR` with start 0, bool product `AND` with start 1 and a boolean initial value; xor only from 0. -/
example (k : Nat) (s : BitVec k) : GoodStart (fun x y : BitVec k => x ||| y) (some 0) s := BitVec.or_zero
example : GoodStart (fun x y : BitVec 8 => x &&& y) (some 1) 1 := by unfold GoodStart; decide
example (k : Nat) : GoodStart (fun x y : BitVec k => x ^^^ y) none 0 := BitVec.xor_zero

/-- **C09**, numpy's loop run per block, for a contiguous array (stride = item size) and an operation
that is associative, commutative and either has its identity as start value or is idempotent.
Not covered: strided arrays (`C09_strided_numpy_violated`), non-associative operations
(`C09_subtract_violated`) and `bitwise_xor` with a nonzero start (`C09_xor_violated`), where the claim
is false. -/
theorem C09_numpy_contiguous_partial (op : α → α → α) (h : AssocComm op) (special : Option α)
    (xs : List α) (init : α) (hs : GoodStart op special init) (hn : 0 < xs.length)
    (req : Int) (mw zz : Nat) (sched : List Nat)
    (hret : (Work.exec (ufuncItem xs.length req mw zz) sched).pc 0 = .returned) :
    threadedNumpy op special 1 xs init
      (Work.kernelCalls (ufuncItem xs.length req mw zz)
        (Work.exec (ufuncItem xs.length req mw zz) sched)) = some (reduceSpec op init xs) := by
  have hcalls := blockCalls xs.length req mw zz sched hret
  unfold threadedNumpy
  simp only
  have hnum : ∀ (l : List α) s, numpyReduce op l s = fold op s l := fun l s =>
    (fold_eq_spec h s l).symm
  rw [mapM_range_some (h := fun b => fold op (special.getD init) (blockOf xs b))]
  · simp only
    rw [hnum, ← fold_eq_spec h]
    have hm : (List.range (chunks xs.length)).map (fun b => fold op (special.getD init) (blockOf xs b))
        = ((List.range (chunks xs.length)).map (blockOf xs)).map (fold op (special.getD init)) := by
      rw [List.map_map]; rfl
    rw [hm, two_level op h special init hs, blocks_flatten xs hn]
  · intro b hb
    rw [Int.mul_one, if_pos ⟨by omega, by omega⟩, Int.toNat_natCast,
      blockPhase_all _ _ _ _ hcalls b hb hn, hnum]

/-- **C09 violated**: for every strided array (stride a multiple `ratio ∉ {0,1}` of the item size) whose
reduction uses numpy's loop (e.g. `min`/`max` of int64 or float64, bitwise and logical reductions), the
threaded call reads outside the buffer of block results, whatever the operation and schedule. -/
theorem C09_strided_numpy_violated (op : α → α → α) (special : Option α) (ratio : Int)
    (hr : ratio < 0 ∨ 1 < ratio) (xs : List α) (init : α) (hn : 65536 ≤ xs.length)
    (calls : List (Nat × Nat)) : threadedNumpy op special ratio xs init calls = none := by
  unfold threadedNumpy
  simp only
  have hc : 4 ≤ chunks xs.length := by unfold chunks Work.CHUNK; omega
  rw [mapM_range_none (i := chunks xs.length - 1) (by omega)]
  rw [if_neg]
  rintro ⟨h1, h2⟩
  have hcast : ((chunks xs.length - 1 : Nat) : Int) = (chunks xs.length : Int) - 1 := by omega
  rw [hcast] at h1 h2
  generalize hk : (chunks xs.length : Int) - 1 = k at *
  have hk3 : 3 ≤ k := by omega
  rcases hr with h | h
  · have : k * ratio < 0 := Int.mul_neg_of_pos_of_neg (by omega) h
    omega
  · have h3 : k * 2 ≤ k * ratio := Int.mul_le_mul_of_nonneg_left (by omega) (by omega)
    omega

/-- Threaded numpy-loop reduction of an array whose elements leave the accumulator unchanged
(`op a z = a`): every block returns the start value, so the result is the start value combined with
itself once per block. -/
theorem threadedNumpy_const (op : α → α → α) (z init : α) (hz : op init z = init) (n : Nat) (hn : 0 < n)
    (calls : List (Nat × Nat)) (hcalls : BlockCalls n calls) :
    threadedNumpy op none 1 (List.replicate n z) init calls =
      some ((List.replicate (chunks n) init).foldl op init) := by
  have hrep : ∀ k, (List.replicate k z).foldl op init = init := by
    intro k
    induction k with
    | zero => rfl
    | succ k ih => rw [List.replicate_succ, List.foldl_cons, hz, ih]
  unfold threadedNumpy
  simp only [List.length_replicate]
  rw [mapM_range_some (h := fun _ => init)]
  · simp [numpyReduce, List.map_const']
  · intro b hb
    rw [Int.mul_one, if_pos ⟨by omega, by omega⟩, Int.toNat_natCast,
      blockPhase_all _ _ _ _ (by simpa using hcalls) b (by simpa using hb) (by simpa using hn)]
    have : blockOf (List.replicate n z) b = List.replicate (min Work.CHUNK (n - Work.CHUNK * b)) z := by
      unfold blockOf; simp
    rw [this]
    simp [numpyReduce, hrep]

/-- **C09 violated** for `subtract.reduce` (and likewise every non-associative hooked ufunc): the
threaded result differs from the serial one under every schedule. Here 65536 zeros with start
value 1: serial 1, threaded -3. -/
theorem C09_subtract_violated (req : Int) (mw zz : Nat) (sched : List Nat)
    (hret : (Work.exec (ufuncItem 65536 req mw zz) sched).pc 0 = .returned) :
    threadedNumpy (fun x y : Int => x - y) none 1 (List.replicate 65536 0) 1
      (Work.kernelCalls (ufuncItem 65536 req mw zz) (Work.exec (ufuncItem 65536 req mw zz) sched)) ≠
    some (reduceSpec (fun x y : Int => x - y) 1 (List.replicate 65536 0)) := by
  rw [threadedNumpy_const _ _ _ (by decide) _ (by decide) _ (blockCalls 65536 req mw zz sched hret)]
  have h1 : reduceSpec (fun x y : Int => x - y) 1 (List.replicate 65536 0) = 1 := by
    unfold reduceSpec
    generalize 65536 = n
    induction n with
    | zero => rfl
    | succ n ih => rw [List.replicate_succ, List.foldl_cons]; exact ih
  rw [h1]
  decide

/-- **C09 violated** for `bitwise_xor.reduce` with a nonzero start value (`initial=`, or the second
buffer of a long reduction): with an odd number of blocks the start value cancels. -/
theorem C09_xor_violated (req : Int) (mw zz : Nat) (sched : List Nat)
    (hret : (Work.exec (ufuncItem 65537 req mw zz) sched).pc 0 = .returned) :
    threadedNumpy (xorOp (k := 64)) none 1 (List.replicate 65537 0) 1
      (Work.kernelCalls (ufuncItem 65537 req mw zz) (Work.exec (ufuncItem 65537 req mw zz) sched)) ≠
    some (reduceSpec (xorOp (k := 64)) 1 (List.replicate 65537 0)) := by
  rw [threadedNumpy_const _ _ _ (by decide) _ (by decide) _ (blockCalls 65537 req mw zz sched hret)]
  have h1 : reduceSpec (xorOp (k := 64)) 1 (List.replicate 65537 0) = 1 := by
    unfold reduceSpec
    generalize 65537 = n
    induction n with
    | zero => rfl
    | succ n ih => rw [List.replicate_succ, List.foldl_cons]; exact ih
  rw [h1]
  decide

/-- Non-vacuity of the C09 theorems: a schedule under which such a call returns exists for every
length. -/
theorem reduce_returns (n : Nat) (req : Int) (mw zz : Nat) :
    ∃ sched, (Work.exec (ufuncItem n req mw zz) sched).pc 0 = .returned := by
  obtain ⟨t, ht⟩ := C03_caller_alone n req mw zz
  refine ⟨List.replicate t 0, ?_⟩
  rw [← ht]
  have : ∀ t, Work.exec (ufuncItem n req mw zz) (List.replicate t 0) =
      Work.trace (ufuncItem n req mw zz) (fun _ => 0) t := by
    intro t
    induction t with
    | zero => rfl
    | succ t ih =>
      rw [List.replicate_succ']
      unfold Work.exec at ih ⊢
      rw [List.foldl_append, ih]
      rfl
  rw [this]

/-- Case: the sum of 37 int32 in a register of 8 lanes, and of a broadcast scalar. -/
example (xs : List (BitVec 32)) := C11_covers_all (fun x y : BitVec 32 => x + y) ⟨BitVec.add_assoc, BitVec.add_comm⟩ 8 (by decide) .contiguous xs 5 (by simp)

example := C11_covers_all (fun x y : BitVec 32 => x + y) ⟨BitVec.add_assoc, BitVec.add_comm⟩ 8 (by decide) .zero (List.replicate 37 (3#32)) 5
  (fun _ x hx => by rw [(List.mem_replicate.1 hx).2]; rfl)

/-- Case: ten values added in a wider type. -/
example (xs : List (BitVec 8)) (h : xs.length = 10) := C11_upcast_short_partial (fun x : BitVec 8 => x.setWidth 16) (fun y => y.setWidth 8) (fun x y : BitVec 16 => x + y)
  ⟨BitVec.add_assoc, BitVec.add_comm⟩ xs 0 (by omega)

/-- Case: 100000 int16, the caller alone. -/
example (xs : List (BitVec 16)) (h : xs.length = 100000) : ∃ sched, threadedNumpy (fun x y : BitVec 16 => x + y) (some 0) 1 xs 7
    (Work.kernelCalls (ufuncItem xs.length 3 3 0) (Work.exec (ufuncItem xs.length 3 3 0) sched)) = some (reduceSpec (fun x y => x + y) 7 xs) := by
  obtain ⟨sched, hret⟩ := returns_alone xs.length 3 3 0
  exact ⟨sched, C09_numpy_contiguous_partial _ ⟨BitVec.add_assoc, BitVec.add_comm⟩ (some 0) xs 7 (BitVec.add_zero 7) (by omega) 3 3 0 sched hret⟩

end Pnumpy.Props
