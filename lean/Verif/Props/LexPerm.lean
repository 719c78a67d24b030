import Verif.Props.LexIndex
import Verif.Proofs.LexPerm
import Verif.Props.LexEntry
import Verif.Props.SortHooks
/-
Property theorems C83 and C84: what argsort and lexsort do to the index array for keys of any content.
-/
namespace Pnumpy.Props
open Pnumpy.Sort Pnumpy.ParSort Pnumpy.Str Pnumpy.Lex Pnumpy.LexEntry Pnumpy.SortApi Pnumpy.SortHooks Spec

/-! ### C83: the result is a permutation -/

/-- **C83**: whatever the keys (NaN, float16 and strings included), the number of keys and rows, the kind and the schedule: an index array that lexsort
returns holds every row number exactly once. -/
theorem C83_lexsort_permutation (k : Kind) (cs : List Col) (n : Nat) (hc : ∀ c ∈ cs, c.Sized ∧ c.rows = n) (hn : n < 2 ^ 63) (ix : List Nat)
    (h : LexRun k cs n ix) : ix.Perm (List.range n) :=
  passes_perm hc (fun i hi => List.mem_range.1 hi) (by simpa using hn) h

/-- **C83**: with `index=` row numbers (any, in any order, repeated or not) the result is a rearrangement of them. -/
theorem C83_index_permutation (k : Kind) (cs : List Col) (n : Nat) (hc : ∀ c ∈ cs, c.Sized ∧ c.rows = n) (ix0 ix : List Nat) (h0 : ∀ i ∈ ix0, i < n)
    (hn : ix0.length < 2 ^ 63) (h : Passes k cs ix0 ix) : ix.Perm ix0 :=
  passes_perm hc h0 hn h

/-- **C83**: with ascending `cutoffs=` every partition of the result holds each of the numbers from 0 to its length - 1 exactly once. -/
theorem C83_cutoffs_permutation (cs : List Col) (cut out : List Nat) (n : Nat) (hc : ∀ c ∈ cs, c.Sized ∧ c.rows = n) (hn : n < 2 ^ 63)
    (hasc : cut.Pairwise (· ≤ ·)) (hlast : cut.getLast? = some n) (ho : out.length = n) (ix : List Nat) (h : CutRun cs cut out ix) :
    ix.length = n ∧ ∀ t, t < cut.length →
      ((ix.drop (cutLo cut t)).take (cutHi cut t - cutLo cut t)).Perm (List.range (cutHi cut t - cutLo cut t)) := by
  have hcut : ValidCut cut n := ⟨hasc, hlast⟩
  obtain ⟨ix0, p1, p2, p3⟩ := prep_ok hcut out ho
  have hrel : Rel cut ix0 := fun t ht i hi => by rw [p3 t ht] at hi; exact List.mem_range.1 hi
  obtain ⟨jx, h1, h2⟩ := h
  rw [p1] at h1; obtain rfl := Option.some.inj h1
  obtain ⟨l, h3⟩ := cutPasses_perm hc hn hcut p2 hrel h2
  refine ⟨l, fun t ht => ?_⟩
  have := h3 t ht
  rw [p3 t ht] at this
  exact this

/-- **C83**: the call itself. lexsort32 and lexsort64 of native 1-D arrays with any strides return, if they return an array, a new one that holds every
row number exactly once, so that `a[ix]` never fails. -/
theorem C83_call (w : Nat) (hw : w = 4 ∨ w = 8) (fails : Nat → Bool) (allocFails : Bool) (args : List PyObj) (kind : Option (List Char))
    (h h' : Heap) (n : Nat) (cs : List Col) (hk : List.Forall₂ (KeyIs h n) (keysOf args) cs) (hne : keysOf args ≠ [])
    (hc : ∀ c ∈ cs, c.Sized ∧ c.rows = n) (hn : n < 2 ^ (8 * w - 1)) (r : Nat) (ix : List Nat)
    (hl : Lexsort w fails allocFails args ⟨.absent, .absent, kind⟩ h h' (.sorted r ix)) :
    h.next ≤ r ∧ (h'.arr r).HoldsInts w (ix.map Int.ofNat) ∧ ix.Perm (List.range n) := by
  have hn' : n < 2 ^ 63 := by
    rcases hw with rfl | rfl
    · exact Nat.lt_trans hn (by decide)
    · exact hn
  have hix : ∀ i ∈ List.range n, i < n := fun i hi => List.mem_range.1 hi
  rcases lexsort_gen w (by omega) fails allocFails args kind h h' _ n cs (forall₂_imp (fun _ _ k => k.raw) hk) hne
    (passes_exist_any hc hix (by simpa using hn')) (fun ix h => C83_lexsort_permutation _ cs n hc hn' ix h) (Nat.le_of_lt hn) hl with
    ⟨h, _⟩ | ⟨r', ix', h1, h2, h3, h4⟩
  · rcases h with h | h <;> cases h
  · cases h1
    exact ⟨h2, h3, C83_lexsort_permutation _ cs n hc hn' _ h4⟩

/-- **C83**: np.argsort with pnumpy's hooks installed, of every array of the hooked types (any shape, strides, alignment, byte order and content), every
line, kind and setting, whatever the schedule: every position exactly once. (If numpy's own argsort does so.) -/
theorem C83_np_argsort {np : Kind → (Nat → Nat → Prop) → List Nat → List Nat → Prop} (hnp : ∀ k c ix0 ix, np k c ix0 ix → ix.Perm ix0) (e : Env) (a : Arr) (t : DT)
    (ht : a.HasType t) (k : Kind) (p s : Int) (n : Nat) (hn : n < 2 ^ 63) (ix : List Nat) (h : NpArgsort np e a k p s n ix) :
    ix.Perm (List.range n) := by
  unfold NpArgsort at h
  split at h
  · rw [h]
  · obtain ⟨atype, ct, ha, hct, hs⟩ := h
    have hty := stub_type ht ha
    obtain rfl : ct = .num t := by rw [ht.2.1] at hct; exact (Option.some.inj hct).symm
    have hcore : ∀ ix, ArgStub np e.atop a.dtype atype (.num t) a.itemsize k (laneData e.aligned a p s) n false (List.range n) ix →
        ix.Perm (List.range n) := by
      intro ix hs
      cases hs with
      | served h hc hp =>
        rw [hty.1] at hc; cases hc
        rw [lane_column ht] at hp
        refine pass_perm (c := .num t _) trivial (fun i hi => ?_) (by simpa using hn) hp
        show i < (a.lane t p s n).length
        rw [lane_length]; exact List.mem_range.1 hi
      | failed h hn => exact hnp _ _ _ _ hn
      | punted h hn => exact hnp _ _ _ _ hn
    cases hled : e.ledger with
    | false => rw [hled] at hs; exact hcore ix hs
    | true =>
      rw [hled] at hs
      cases hs with
      | ledgered h => exact hcore ix h

/-- Two NaN columns and a float16 column: the hypotheses are met by columns C24 excludes. -/
def oddCols : List Col := [.num .f64 [0x7ff8000000000000#64, 1#64, 0xfff0000000000001#64], .half [0x7e00#16, 0#16, 1#16], .str 8 1 [[2#8], [1#8], [2#8]]]

theorem oddCols_sized : ∀ c ∈ oddCols, c.Sized ∧ c.rows = 3 := by
  intro c hc
  simp only [oddCols, List.mem_cons, List.not_mem_nil, or_false] at hc
  rcases hc with rfl | rfl | rfl
  · exact ⟨trivial, rfl⟩
  · exact ⟨trivial, rfl⟩
  · exact ⟨by intro s hs; simp at hs; rcases hs with rfl | rfl | rfl <;> rfl, rfl⟩

example : ∃ ix, LexRun .heap oddCols 3 ix ∧ ix.Perm [0, 1, 2] := by
  obtain ⟨ix, h⟩ := passes_exist_any (k := .heap) (ix := List.range 3) oddCols_sized (fun i hi => List.mem_range.1 hi) (by decide)
  exact ⟨ix, h, C83_lexsort_permutation .heap oddCols 3 oddCols_sized (by decide) ix h⟩

/-! ### C25 without restriction on the keys -/

/-- C25: the result is the same for every processing order of the partitions, whatever the keys. -/
theorem C25_schedule (cs : List Col) (cut out out' : List Nat) (n : Nat) (hc : ∀ c ∈ cs, c.Sized ∧ c.rows = n)
    (hn : n < 2 ^ 63) (hasc : cut.Pairwise (· ≤ ·)) (hlast : cut.getLast? = some n) (ho : out.length = n) (ho' : out'.length = n)
    (ix jx : List Nat) (h1 : CutRun cs cut out ix) (h2 : CutRun cs cut out' jx) : ix = jx := by
  have hcut : ValidCut cut n := ⟨hasc, hlast⟩
  obtain ⟨ix0, p1, p2, p3⟩ := prep_ok hcut out ho
  obtain ⟨jx0, q1, q2, q3⟩ := prep_ok hcut out' ho'
  have e : ix0 = jx0 := hcut.ext p2 q2 fun t ht => by rw [p3 t ht, q3 t ht]
  subst e
  have hrel : Rel cut ix0 := fun t ht i hi => by rw [p3 t ht] at hi; exact List.mem_range.1 hi
  obtain ⟨a, a1, a2⟩ := h1
  obtain ⟨b, b1, b2⟩ := h2
  rw [p1] at a1; cases a1
  rw [q1] at b1; cases b1
  exact cutPasses_det hc hn hcut p2 hrel a2 b2

/-- C25: while partitions are sorted concurrently, a partition only changes positions between its own cutoffs (running
or finished), for every reachable state of the threads. -/
theorem C25_no_interference (c : Col) (cut a0 : List Nat) (n : Nat) (hg : c.Sized) (hrows : c.rows = n) (hn : n < 2 ^ 63)
    (hasc : cut.Pairwise (· ≤ ·)) (hlast : cut.getLast? = some n) (h0 : a0.length = n)
    (hrel : ∀ t, t < cut.length → ∀ i ∈ (a0.drop (cutLo cut t)).take (cutHi cut t - cutLo cut t), i < cutHi cut t - cutLo cut t)
    (s : CS) (h : CReach c cut { a := a0, st := fun _ => .idle } s) (t : Nat) (ht : t < cut.length) (hidle : s.st t = .idle) :
    (s.a.drop (cutLo cut t)).take (cutHi cut t - cutLo cut t) = (a0.drop (cutLo cut t)).take (cutHi cut t - cutLo cut t) :=
  (CInv.reach (effect_sized hg hrows hn ⟨hasc, hlast⟩) ⟨hasc, hlast⟩ h0 hrel h).idle t ht hidle

/-- C25: whatever the keys, the partitions can be sorted to the end. -/
theorem C25_completes (cs : List Col) (cut out : List Nat) (n : Nat) (hc : ∀ c ∈ cs, c.Sized ∧ c.rows = n)
    (hn : n < 2 ^ 63) (hasc : cut.Pairwise (· ≤ ·)) (hlast : cut.getLast? = some n) (ho : out.length = n) : ∃ ix, CutRun cs cut out ix := by
  have hcut : ValidCut cut n := ⟨hasc, hlast⟩
  obtain ⟨ix0, p1, p2, p3⟩ := prep_ok hcut out ho
  have hrel : Rel cut ix0 := fun t ht i hi => by rw [p3 t ht] at hi; exact List.mem_range.1 hi
  obtain ⟨ix, h⟩ := cutPasses_exist_any hc hn hcut p2 hrel
  exact ⟨ix, ix0, p1, h⟩

/-- Cutoffs 1, 1, 3 (an empty partition) of the odd columns. -/
example : ∃ ix, CutRun oddCols [1, 1, 3] [9, 9, 9] ix ∧ ((ix.drop 1).take 2).Perm [0, 1] ∧ ∀ jx, CutRun oddCols [1, 1, 3] [7, 7, 7] jx → jx = ix := by
  obtain ⟨ix, h⟩ := C25_completes oddCols [1, 1, 3] [9, 9, 9] 3 oddCols_sized (by decide) (by decide) rfl rfl
  exact ⟨ix, h, (C83_cutoffs_permutation oddCols [1, 1, 3] [9, 9, 9] 3 oddCols_sized (by decide) (by decide) rfl rfl ix h).2 2 (by decide),
    fun jx hj => C25_schedule oddCols [1, 1, 3] [7, 7, 7] [9, 9, 9] 3 oddCols_sized (by decide) (by decide) rfl rfl rfl jx ix hj h⟩

/-! ### C84: every access is inside the arrays and the sort comes to an end -/

/-- **C84**: without threads every lexsort of any keys can be carried out, from any row numbers: no access outside the arrays. -/
theorem C84_serial (k : Kind) (c : Col) (n : Nat) (hc : c.Sized) (hr : c.rows = n) (ix w : List Nat) (hix : ∀ i ∈ ix, i < n)
    (hn : ix.length < 2 ^ 63) (hw : w.length = ix.length / 2) : ∃ ix', passSerial k c ix w = some ix' ∧ ix'.Perm ix :=
  passSerial_perm hc k ix w (by rw [hr]; exact hix) hn hw

/-- Case: a float64 column of three rows with a NaN, rows 2, 0, 2. -/
example (k : Kind) := C84_serial k (.num .f64 [0x7ff8000000000000#64, 0#64, 1#64]) 3 trivial rfl [2, 0, 2] [0] (by decide) (by decide) rfl

/-- **C84** (partial: number keys; for strings see `C84_strings_violated`): in a parallel pass over a key, from any row numbers, every task that runs
returns without leaving its own part of the index array and of the workspace, and the pass can always be completed. -/
theorem C84_parallel_partial (t : DT) (k : Kind) (v : List (BitVec t.bits)) (ix w : List Nat) (hix : ∀ i ∈ ix, i < v.length)
    (hw : w.length = 8 * (ix.length / 16 + 1)) (hn : 65536 ≤ ix.length) (hn' : ix.length < 2 ^ 63) (s : PS Nat)
    (hr : ParArgRun t k v ix w s) :
    (∀ l j p, s.st (l, j) = .running p →
      ∃ a' w', body (leafArg (opsArg t) k v) (parMerge (indirect (opsArg t).lt v)) ix.length l j (splice s.a (nodeLo ix.length l j) p) s.w
          = some (a', w') ∧
        Within (nodeLo ix.length l j) (nodeHi ix.length l j) a' s.a ∧
        Within (nodeWs ix.length l j) (nodeWs ix.length l (j + 1)) w' s.w) ∧
    ∃ s', Reach (leafArg (opsArg t) k v) (parMerge (indirect (opsArg t).lt v)) ix.length none s s' ∧ s'.completed = 8 := by
  have hc := (arg_perm_contract (opsArg_ok t) k v hn').node rfl hix
  have hi : Inv ix.length (onNode ix.length ix fun S' S => S'.Perm S) none ix (init ix w) := inv_init w _ rfl hw (fun _ => rfl)
  constructor
  · intro l j p h
    have i := reach_inv hc (by omega) rfl (fun _ h => by cases h) hi hr
    have hv := i.tree.valid l j (by rw [h]; exact fun h => by cases h)
    obtain ⟨a', w', h1, h2, h3, _⟩ := body_ok hc (by omega) rfl i.content hv h
    exact ⟨a', w', h1, h2, h3⟩
  · obtain ⟨s', _, h1, h2⟩ := exists_complete hc (by omega) rfl (fun _ h => by cases h) hi hr
    exact ⟨s', h1, h2⟩

/-- Case: from the start on any 65536 or more row numbers of a float32 column. -/
example (v : List (BitVec DT.f32.bits)) (k : Kind) (ix : List Nat) (hix : ∀ i ∈ ix, i < v.length) (hn : 65536 ≤ ix.length) (hn' : ix.length < 2 ^ 63) :=
  (C84_parallel_partial .f32 k v ix (List.replicate (8 * (ix.length / 16 + 1)) 0) hix List.length_replicate hn hn' _ .start).2

/-! The violation: a parallel pass over strings after another key. -/

/-- Either a run with the repaired merge is a run of the code, or the code gets stuck in a merge on the way. -/
theorem reach_or_stuck {leaf : LeafFn Nat} {cmp : Nat → Nat → Option Bool} {n : Nat} {src : Option (List Nat)} {s0 s : PS Nat}
    (h : Reach leaf (strMergeTotal cmp) n src s0 s) : Reach leaf (parMergeStr cmp) n src s0 s ∨
      ∃ s1 k j snap, Reach leaf (parMergeStr cmp) n src s0 s1 ∧ s1.st (k, j) = .running snap ∧
        body leaf (parMergeStr cmp) n k j (splice s1.a (nodeLo n k j) snap) s1.w = none := by
  induction h with
  | start => exact Or.inl .start
  | @step s s' _ hs ih =>
    rcases ih with ih | ih
    · cases hs with
      | claim h1 => exact Or.inl (ih.step (.claim _ h1))
      | scribble k j snap a' w' h1 h2 h3 => exact Or.inl (ih.step (.scribble _ k j snap a' w' h1 h2 h3))
      | commit k j snap a' w' h1 h2 =>
        cases hb : body leaf (parMergeStr cmp) n k j (splice s.a (nodeLo n k j) snap) s.w with
        | none => exact Or.inr ⟨s, k, j, snap, ih, h1, hb⟩
        | some r =>
          refine Or.inl (ih.step (.commit _ k j snap a' w' h1 ?_))
          rw [← h2]
          unfold body at hb ⊢
          split
          · rfl
          · rename_i hk
            rw [if_neg hk] at hb
            unfold strMergeTotal
            rw [hb]; rfl
      | goUp k j hk h1 h2 => exact Or.inl (ih.step (.goUp _ k j hk h1 h2))
      | wait k j hk h1 h2 => exact Or.inl (ih.step (.wait _ k j hk h1 h2))
    · exact Or.inr ih

/-- The merge leaves the key array when row 0 comes first in the right half. -/
theorem head_zero {cmp : Nat → Nat → Option Bool} (A L R B w : List Nat) {pl len : Nat} (pw : Nat) (h1 : pl = A.length)
    (h2 : len = L.length + R.length) (hhalf : L.length = len / 2) (h0 : R[0]? = some 0) :
    parMergeStr cmp (A ++ L ++ R ++ B) w pl len pw = none := by
  have hgx : (A ++ L ++ R ++ B)[pl + len / 2]? = some 0 := by
    cases R with
    | nil => cases h0
    | cons y R0 =>
      obtain rfl : y = 0 := by simpa using h0
      have e : A ++ L ++ 0 :: R0 ++ B = (A ++ L) ++ 0 :: (R0 ++ B) := by simp
      rw [e]; exact get_mid (by simp; omega)
  unfold parMergeStr
  simp only [Option.bind_eq_bind, hgx, Option.bind_some, if_true]

theorem equal_lt {u : Nat} (x : List (BitVec u)) {m i j : Nat} (hi : i < m) (hj : j < m) :
    keyLt (lexKey nums) (List.replicate m x) i j = false := by
  unfold keyLt
  rw [List.getElem?_replicate, List.getElem?_replicate, if_pos hi, if_pos hj]
  exact (lexKey_swo nums).irrefl x

/-- The repaired merge leaves the halves as they are when no key is smaller than that of the row before. -/
theorem strMerge_keep {cmp : Nat → Nat → Option Bool} {lt : Nat → Nat → Bool} {n : Nat} (hc : Computes cmp lt (fun i => i < n))
    (A L R B W1 W W2 : List Nat) (hPL : ∀ x ∈ L, x < n) (hPR : ∀ x ∈ R, x < n) (hlt : ∀ x ∈ R, lt x (x - 1) = false) {pl len pw : Nat}
    (h1 : pl = A.length) (h2 : len = L.length + R.length) (h3 : pw = W1.length)
    (hhalf : L.length = len / 2) (h5 : 2 ≤ len) (hW : L.length ≤ W.length) :
    ∃ W', W'.length = W.length ∧
      strMergeTotal cmp (A ++ L ++ R ++ B) (W1 ++ W ++ W2) pl len pw = some (A ++ (L ++ R) ++ B, W1 ++ W' ++ W2) := by
  obtain ⟨x, R0, hRx⟩ := exists_head R (by omega)
  have hx := hPR x (by rw [hRx]; simp)
  by_cases h0 : x = 0
  · refine ⟨W, rfl, ?_⟩
    unfold strMergeTotal
    rw [head_zero A L R B (W1 ++ W ++ W2) pw h1 h2 hhalf (by rw [hRx, h0]; rfl)]
    simp
  · obtain ⟨W', e1, e2⟩ := parMergeStr_run hc A L R B W1 W W2 hPL hPR hRx h0 (by show x - 1 < n; omega) h1 h2 h3 hhalf hW
    refine ⟨W', e1, ?_⟩
    rw [hlt x (by rw [hRx]; simp)] at e2
    unfold strMergeTotal
    rw [e2]
    simp

/-- Equal strings: the repaired merge sort leaves the index array as it is. -/
theorem equal_contract {u len : Nat} (x : List (BitVec u)) (hx : x.length = len) {m : Nat} {a0 : List Nat} (h0 : a0.length = m)
    (hP : ∀ i ∈ a0, i < m) :
    NContract (leafArgStr (byIndex (strLt len) (List.replicate m x))) (strMergeTotal (byIndex (strLt len) (List.replicate m x))) m a0
      (fun k j S => S = part m a0 k j) where
  len hv h := by rw [h]; exact seg_length (by rw [h0]; exact nodeHi_le hv)
  leaf_ok {j} A B w hj hA hw := by
    have hall : ∀ s ∈ List.replicate m x, s.length = len := fun s hs => by rw [(List.mem_replicate.1 hs).2]; exact hx
    have hv : Valid 0 j := ⟨by omega, by simpa using hj⟩
    have hhi := nodeHi_le (n := m) hv
    have hws := ws_enough (n := m) hv
    have hwm := nodeWs_mono m 0 j
    have hS : (part m a0 0 j).length = nodeHi m 0 j - nodeLo m 0 j := seg_length (by rw [h0]; exact hhi)
    obtain ⟨W1, W, W2, rfl, hW1, hW⟩ := leaf_ws hj w hw
    obtain ⟨S', W', h1, h2, h3⟩ := str_all (computes_byIndex (computes_str (u := u) len) (List.replicate m x) hall)
      (keyLt_swo (lexKey_swo nums) _) false (nodeHi m 0 j - nodeLo m 0 j) A (part m a0 0 j) B W1 W W2 hS (by omega)
      (fun i hi => by
        have := hP i (List.mem_of_mem_drop (List.mem_of_mem_take hi))
        simpa using this)
    refine ⟨S', W1 ++ W' ++ W2, ?_, ?_, within_mid hW1.symm (by omega) h2⟩
    · rw [hA, hW1] at h3
      exact h3
    · refine SS.eq (keyLt_swo (lexKey_swo nums) _) h1 (SS.refl ?_)
      refine List.pairwise_of_forall_mem_list fun i hi j hj => equal_lt x ?_ ?_
      · exact hP j (List.mem_of_mem_drop (List.mem_of_mem_take hj))
      · exact hP i (List.mem_of_mem_drop (List.mem_of_mem_take hi))
  merge_ok {k j} A L R B W1 W W2 pl ln pw hv hL hR hA h1 h2 h3 h4 h5 h6 := by
    have hall : ∀ s ∈ List.replicate m x, s.length = len := fun s hs => by rw [(List.mem_replicate.1 hs).2]; exact hx
    have hPs : ∀ l u, ∀ i ∈ seg a0 l u, i < (List.replicate m x).length := fun l u i hi => by
      have := hP i (List.mem_of_mem_drop (List.mem_of_mem_take hi))
      simpa using this
    obtain ⟨W', e1, e2⟩ := strMerge_keep (computes_byIndex (computes_str (u := u) len) (List.replicate m x) hall) A L R B W1 W W2
      (by rw [hL]; exact hPs _ _) (by rw [hR]; exact hPs _ _)
      (fun y hy => by
        have := hPs _ _ y (by rw [hR] at hy; exact hy)
        simp only [List.length_replicate] at this
        exact equal_lt x this (by omega)) h1 h2 h3 h4 h5 h6
    refine ⟨L ++ R, W', ?_, e1, e2⟩
    obtain ⟨m1, m2, m3, m4⟩ := node_mid (n := m) hv
    have h := nodeLo_le (n := m) hv
    show L ++ R = part m a0 (k + 1) j
    rw [hL, hR]
    unfold part
    rw [← m1, ← m2, ← m3]
    exact (seg_split (by omega) (by omega)).symm

/-- With equal strings and row 0 at the start of the second eighth, no parallel pass gets beyond the first merge. -/
theorem never_done {u len : Nat} (x : List (BitVec u)) (hx : x.length = len) (a0 w : List Nat) (hn : 65536 ≤ a0.length)
    (hP : ∀ i ∈ a0, i < a0.length) (hw : w.length = 8 * (a0.length / 16 + 1)) (hz : a0[a0.length / 2 / 2 / 2]? = some 0) (s : PS Nat)
    (hr : Reach (leafArgStr (byIndex (strLt len) (List.replicate a0.length x))) (parMergeStr (byIndex (strLt len) (List.replicate a0.length x)))
      a0.length none (init a0 w) s) :
    s.completed ≠ 8 := by
  have hc := equal_contract x hx rfl hP
  have hi : Inv a0.length (fun k j S => S = part a0.length a0 k j) none a0 (init a0 w) := inv_init w _ rfl hw (fun _ => rfl)
  have tot : ∀ {s}, Reach (leafArgStr (byIndex (strLt len) (List.replicate a0.length x))) (parMergeStr (byIndex (strLt len) (List.replicate a0.length x)))
      a0.length none (init a0 w) s → Inv a0.length (fun k j S => S = part a0.length a0 k j) none a0 s := by
    intro s hr
    refine reach_inv hc (by omega) rfl (fun _ h => by cases h) hi (reach_mono ?_ hr)
    intro a w pl len pw r h
    unfold strMergeTotal
    rw [h]; rfl
  have key : s.st (1, 0) ≠ .finished ∧ s.st (1, 0) ≠ .flagged := by
    induction hr with
    | start => exact ⟨(fun h => nomatch h), (fun h => nomatch h)⟩
    | @step s s' hr hs ih =>
      have i := tot hr
      cases hs with
      | claim h1 =>
        simp only [Function.update_of_ne (show ((1, 0) : Nat × Nat) ≠ (0, s.next) by simp)]
        exact ih
      | scribble k j snap a' w' h1 h2 h3 => exact ih
      | commit k j snap a' w' h1 h2 =>
        by_cases e : (k, j) = (1, 0)
        · exfalso
          cases e
          obtain ⟨L, R, rfl, hL, hR⟩ := i.content.cRun 0 0 snap h1
          have hv0 : Valid 0 0 := ⟨by omega, by decide⟩
          have hv1 : Valid 0 1 := ⟨by omega, by decide⟩
          have hLl : L.length = a0.length / 2 / 2 / 2 - 0 := hc.len hv0 hL
          have hRl : R.length = a0.length / 2 / 2 - a0.length / 2 / 2 / 2 := hc.len hv1 hR
          have h2' : parMergeStr (byIndex (strLt len) (List.replicate a0.length x)) (splice s.a 0 (L ++ R)) s.w 0 (a0.length / 2 / 2 - 0)
            (nodeWs a0.length 1 0) = some (a', w') := h2
          have hsp : splice s.a 0 (L ++ R) = [] ++ L ++ R ++ s.a.drop (L.length + R.length) := by simp [splice]
          rw [hsp, head_zero (pl := 0) [] L R _ s.w _ rfl (by omega) (by omega)] at h2'
          · cases h2'
          · have hR' : R = seg a0 (a0.length / 2 / 2 / 2) (a0.length / 2 / 2) := hR
            rw [hR', seg_get (by omega), Nat.add_zero]
            exact hz
        · simp only [Function.update_of_ne (Ne.symm e)]
          exact ih
      | goUp k j hk h1 h2 =>
        have e1 : ((1, 0) : Nat × Nat) ≠ (k, j) := fun e => ih.1 (by rw [e]; exact h1)
        by_cases e2 : ((1, 0) : Nat × Nat) = (k + 1, j / 2)
        · simp only [← e2, Function.update_self]
          exact ⟨(fun h => nomatch h), (fun h => nomatch h)⟩
        · simp only [Function.update_of_ne e2, Function.update_of_ne e1]
          exact ih
      | wait k j hk h1 h2 =>
        have e1 : ((1, 0) : Nat × Nat) ≠ (k, j) := fun e => ih.1 (by rw [e]; exact h1)
        simp only [Function.update_of_ne e1]
        exact ih
  intro h8
  have t := (tot hr).tree
  have h3 := (t.all_done h8).2
  have h2 : s.st (2, 0) = .flagged := t.child (k := 2) (j := 0) (by omega) ⟨by omega, by decide⟩ (by rw [h3]; exact fun h => nomatch h)
  exact key.2 (t.child (k := 1) (j := 0) (by omega) ⟨by omega, by decide⟩ (by rw [h2]; exact fun h => nomatch h))


/-- Row 0 has the key 16385, every other row twice its number. -/
def middleKey (i : Nat) : BitVec DT.u64.bits := BitVec.ofNat 64 (if i = 0 then 16385 else 2 * i)

def middleKeys : List (BitVec DT.u64.bits) := (List.range 65536).map middleKey

theorem middleKeys_length : middleKeys.length = 65536 := by
  rw [middleKeys, List.length_map, List.length_range]

theorem middle_get {i : Nat} (hi : i < 65536) : keyOf middleKeys i = middleKey i := by
  unfold keyOf middleKeys
  rw [List.getElem?_map, List.getElem?_range hi]
  rfl

theorem middle_nat {i : Nat} (hi : i < 65536) : (middleKey i).toNat = if i = 0 then 16385 else 2 * i := by
  show (BitVec.ofNat 64 _).toNat = _
  rw [BitVec.toNat_ofNat, Nat.mod_eq_of_lt]
  split <;> omega

theorem middle_before {i j : Nat} (hi : i < 65536) (hj : j < 65536) (h : (if i = 0 then 16385 else 2 * i) < (if j = 0 then 16385 else 2 * j)) :
    before .u64 (keyOf middleKeys i) (keyOf middleKeys j) := by
  rw [middle_get hi, middle_get hj]
  refine Or.inl (Int.ofNat_lt.2 ?_)
  rw [middle_nat hi, middle_nat hj]
  exact h

/-- Sorted by this key, row 0 comes between rows 8192 and 8193. -/
theorem middle_order {ix : List Nat} (h : IsArgsort (before .u64) (keyOf middleKeys) 65536 ix) :
    ix = List.range' 1 8192 ++ 0 :: List.range' 8193 57343 := by
  have hp : (List.range' 1 8192 ++ 0 :: List.range' 8193 57343).Perm (List.range 65536) := by
    refine List.perm_middle.trans ?_
    have e : List.range 65536 = 0 :: (List.range' 1 8192 ++ List.range' 8193 57343) := by
      have h1 := List.range'_succ (s := 0) (n := 8192 + 57343) (step := 1)
      have h2 := List.range'_append (s := 1) (m := 8192) (n := 57343) (step := 1)
      rw [List.range_eq_range', show (65536 : Nat) = 8192 + 57343 + 1 from rfl, h1, ← h2]
    rw [e]
  have hmem : ∀ i ∈ ix, i < 65536 := fun i hi => List.mem_range.1 (h.1.mem_iff.1 hi)
  have h1 : ix.Pairwise fun i j => (if i = 0 then 16385 else 2 * i) ≤ (if j = 0 then 16385 else 2 * j) := by
    refine List.Pairwise.imp_of_mem (fun {i j} hi hj hb => ?_) h.2
    by_contra hlt
    exact hb (middle_before (hmem j hj) (hmem i hi) (Nat.lt_of_not_le hlt))
  refine (h.1.trans hp.symm).eq_of_pairwise (fun i j _ _ h3 h4 => ?_) h1 ?_
  · split at h3 <;> split at h3 <;> simp_all <;> omega
  · refine List.pairwise_append.2 ⟨?_, List.pairwise_cons.2 ⟨?_, ?_⟩, ?_⟩
    · refine List.Pairwise.imp_of_mem (fun {i j} hi hj hb => ?_) (List.pairwise_lt_range' (s := 1) (n := 8192))
      rw [List.mem_range'_1] at hi hj
      rw [if_neg (by omega), if_neg (by omega)]; omega
    · intro i hi
      rw [List.mem_range'_1] at hi
      rw [if_pos rfl, if_neg (by omega)]; omega
    · refine List.Pairwise.imp_of_mem (fun {i j} hi hj hb => ?_) (List.pairwise_lt_range' (s := 8193) (n := 57343))
      rw [List.mem_range'_1] at hi hj
      rw [if_neg (by omega), if_neg (by omega)]; omega
    · intro i hi j hj
      rw [List.mem_range'_1] at hi
      simp only [List.mem_cons, List.mem_range'_1] at hj
      rw [if_neg (by omega)]
      split <;> omega

theorem middle_good : (Col.num .u64 middleKeys).Good := ⟨(fun h => nomatch h), fun _ _ h => nomatch h⟩

/-- C84, violated: sort 65536 rows by a number key and then by a string key. After the first pass (any kind of run), the parallel second pass never comes
to an end: it reaches a state in which a merge reads the string before the first one, and every run gets stuck like this. -/
theorem C84_strings_violated : ∃ (v1 : List (BitVec DT.u64.bits)) (v2 : List (List (BitVec 8))), (Col.num .u64 v1).Good ∧ (Col.str 8 1 v2).Good ∧
    v1.length = 65536 ∧ v2.length = 65536 ∧ (∃ ix, Pass .merge (.num .u64 v1) (List.range 65536) ix) ∧
    ∀ ix, Pass .merge (.num .u64 v1) (List.range 65536) ix → ∀ w : List Nat, w.length = 8 * (65536 / 16 + 1) →
      (∀ s, Reach (leafArgStr (byIndex (strLt 1) v2)) (parMergeStr (byIndex (strLt 1) v2)) 65536 none (init ix w) s → s.completed ≠ 8) ∧
      ∃ s k j snap, Reach (leafArgStr (byIndex (strLt 1) v2)) (parMergeStr (byIndex (strLt 1) v2)) 65536 none (init ix w) s ∧
        s.st (k, j) = .running snap ∧
        body (leafArgStr (byIndex (strLt 1) v2)) (parMergeStr (byIndex (strLt 1) v2)) 65536 k j (splice s.a (nodeLo 65536 k j) snap) s.w = none := by
  have hv2 : (List.replicate 65536 [0x61#8]).length = 65536 := List.length_replicate
  refine ⟨middleKeys, List.replicate 65536 [0x61#8], middle_good, ?_, middleKeys_length, hv2, ?_, ?_⟩
  · intro s hs
    rw [(List.mem_replicate.1 hs).2]; rfl
  · obtain ⟨ix, h1, _⟩ := passSerial_ok middle_good (List.range 65536) (List.replicate 32768 0)
      (fun i hi => by
        show i < middleKeys.length
        rw [middleKeys_length]; exact List.mem_range.1 hi) (by rw [List.length_range]; decide) (by rw [List.length_replicate, List.length_range])
    exact ⟨ix, .serial _ _ _ _ (by rw [List.length_replicate, List.length_range]) h1⟩
  · intro ix hp w hw
    have hix := middle_order (pass_sorts (n := 65536) middleKeys_length (by decide) (fun h => nomatch h) (k := .merge) (Or.inr middle_good.2) hp)
    have hl : ix.length = 65536 := by rw [hix]; simp
    have hP : ∀ i ∈ ix, i < ix.length := by
      intro i hi
      rw [hl]
      rw [hix] at hi
      simp only [List.mem_append, List.mem_cons, List.mem_range'_1] at hi
      omega
    have hz : ix[ix.length / 2 / 2 / 2]? = some 0 := by
      rw [hl, hix]
      rw [List.getElem?_append_right (by simp)]
      simp
    have nd := never_done (len := 1) [0x61#8] rfl ix w (by omega) hP (by rw [hl]; exact hw) hz
    rw [hl] at nd
    refine ⟨nd, ?_⟩
    have hc := equal_contract (len := 1) [0x61#8] rfl hl (by rw [hl] at hP; exact hP)
    have hi : Inv 65536 (fun k j S => S = part 65536 ix k j) none ix (init ix w) := inv_init w _ hl hw (fun _ => rfl)
    obtain ⟨s, h1, _, h8⟩ := exists_complete hc (by omega) hl (fun _ h => by cases h) hi .start
    rcases reach_or_stuck h1 with h | h
    · exact absurd h8 (nd s h)
    · exact h

/-- A heap with the packed uint8 key [5, 3]; the key is read, and the call ends with a permutation. -/
example : ∃ h' r ix, Lexsort 8 (fun _ => false) false [.array 0] noKw (oneArray reversedPair) h' (.sorted r ix) ∧ ix.Perm [0, 1] := by
  obtain ⟨_, _, c3, c4, c5, _⟩ := reversedPair_case
  obtain ⟨h', r, ix, hl⟩ := C65_finishes 8 [.array 0] none _ 2 _ c4 (by simp [keysOf]) (Or.inl rfl) c3 c5 (by decide) (fun _ => by decide)
  refine ⟨h', r, ix, hl, (C83_call 8 (Or.inr rfl) _ _ [.array 0] none _ h' 2 _ c4 (by simp [keysOf]) (fun c hc => ⟨?_, (c5 c hc).2⟩) (by decide) r ix hl).2.2⟩
  rw [List.mem_singleton.1 hc]
  exact trivial

/-- Case: any kind, rows 2, 0, 2 of three. -/
example (k : Kind) : ∃ ix, Passes k oddCols [2, 0, 2] ix ∧ ix.Perm [2, 0, 2] := by
  obtain ⟨ix, h⟩ := passes_exist_any (k := k) (ix := [2, 0, 2]) oddCols_sized (by decide) (by decide)
  exact ⟨ix, h, C83_index_permutation k oddCols 3 oddCols_sized [2, 0, 2] ix (by decide) (by decide) h⟩

end Pnumpy.Props
