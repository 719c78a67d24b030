import Verif.Proofs.ArgMergeExact
import Verif.Props.ParArgSort
/-
C20-C22: what the merge argsort returns exactly, for arbitrary keys (NaN included), serially and in parallel.
-/
namespace Pnumpy.Props
open Spec Pnumpy.Sort Pnumpy.ParSort

section
variable {α : Type} [Inhabited α]

/-- A merge of arbitrary runs. -/
theorem parMerge_eq {cmp : Nat → Nat → Option Bool} {lt : Nat → Nat → Bool} {P : Nat → Prop} (hc : Computes cmp lt P)
    (A L R B W1 W W2 : List Nat) (hPL : ∀ x ∈ L, P x)
    (hPR : ∀ x ∈ R, P x) {pl len pw : Nat} (h1 : pl = A.length) (h2 : len = L.length + R.length) (h3 : pw = W1.length)
    (hhalf : L.length = len / 2) (hpos : 2 ≤ len) (hW : L.length ≤ W.length) :
    ∃ W', W'.length = W.length ∧
      parMerge cmp (A ++ L ++ R ++ B) (W1 ++ W ++ W2) pl len pw =
        some (A ++ (if needsMerge lt L R then mergeRef lt L R else L ++ R) ++ B, W1 ++ W' ++ W2) := by
  subst h1 h3
  obtain ⟨L0, y, hLy⟩ := exists_last L (by omega)
  obtain ⟨x, R0, hRx⟩ := exists_head R (by omega)
  have hPy : P y := hPL y (by rw [hLy]; simp)
  have hPx : P x := hPR x (by rw [hRx]; simp)
  have hcmp := hc x y hPx hPy
  have hgx : (A ++ L ++ R ++ B)[A.length + len / 2]? = some x := by
    rw [hRx]
    have e : A ++ L ++ x :: R0 ++ B = (A ++ L) ++ x :: (R0 ++ B) := by simp
    rw [e]; exact get_mid (by simp; omega)
  have hgy : (A ++ L ++ R ++ B)[A.length + len / 2 - 1]? = some y := by
    rw [hLy]
    have e : A ++ (L0 ++ [y]) ++ R ++ B = (A ++ L0) ++ y :: (R ++ B) := by simp
    rw [hLy] at hhalf; simp at hhalf
    rw [e]; exact get_mid (by simp; omega)
  rw [needs_eq hLy hRx, mergeRef_eq]
  cases hb : lt x y
  · refine ⟨W, rfl, ?_⟩
    unfold parMerge
    rw [if_neg (by omega)]
    simp only [Option.bind_eq_bind, Option.bind_some, hgx, hgy, hcmp, hb, Bool.false_eq_true, if_false]
    simp
  · obtain ⟨G, W', rfl, hG, hW'⟩ := split_at W (len / 2) (by omega)
    have hrun := mergeBack_ok (tr := cmp) (t := lt) (A := A) (G := L) (R := R)
      (B := B) (W1 := W1) (L := L) (W2 := W' ++ W2) (hG := rfl)
      (ht := fun r hr l hl => hc r l (hPR r hr) (hPL l hl)) (pl := A.length) (pm := A.length + len / 2) (pr := A.length + len)
      (pw := W1.length) (pwEnd := W1.length + (A.length + len / 2 - A.length))
      rfl (by omega) rfl (by omega) (by omega)
    refine ⟨L ++ W', by simp; omega, ?_⟩
    have hblit : blit (A ++ L ++ R ++ B) A.length (W1 ++ (G ++ W') ++ W2) W1.length
        (A.length + len / 2 - A.length) = some (W1 ++ L ++ (W' ++ W2)) := by
      have := blit_eq (A1 := A) (S := L) (A2 := R ++ B) (B1 := W1) (G := G) (B2 := W' ++ W2) (s := A.length)
        (d := W1.length) (n := A.length + len / 2 - A.length) rfl rfl (by omega) (by omega)
      rw [← this]; congr 1 <;> simp
    unfold parMerge
    rw [if_neg (by omega)]
    simp only [Option.bind_eq_bind, Option.bind_some, hgx, hgy, hcmp, hb, if_true, hblit]
    simp only [Option.bind_eq_bind] at hrun
    obtain ⟨m, hm1, hm2⟩ := Option.bind_eq_some_iff.1 hrun
    rw [hm1, Option.bind_some, hm2, Option.bind_some]
    simp

/-- What each node of the parallel merge argsort produces. -/
theorem arg_exact_contract {o : Ops α} (ho : OpsOk o) (v : List α) {n : Nat} {a0 : List Nat} (h0 : a0.length = n) (hP : ∀ i ∈ a0, i < v.length) :
    NContract (leafArg o .merge v) (parMerge (indirect o.lt v)) n a0
      (fun k j S' => S' = argPar (keyLt o.lt v) (keyLt o.rawLt v) k (part n a0 k j)) where
  len {k j S} hv h := by
    rw [h, (par_perm (keyLt_swo ho.swo v) k _).length_eq]; exact seg_length (by rw [h0]; exact nodeHi_le hv)
  leaf_ok {j} A B w hj hA hw := by
    have hv : Valid 0 j := ⟨by omega, by simpa using hj⟩
    have hhi := nodeHi_le (n := n) hv
    have hws := ws_enough (n := n) hv
    have hwm := nodeWs_mono n 0 j
    have hS : (part n a0 0 j).length = nodeHi n 0 j - nodeLo n 0 j := seg_length (by rw [h0]; exact hhi)
    obtain ⟨W1, W, W2, rfl, hW1, hW⟩ := leaf_ws hj w hw
    obtain ⟨W', h2, h3⟩ := (ems_all ho v (part n a0 0 j).length).1 (part n a0 0 j).length A (part n a0 0 j) B W1 W W2 (Nat.le_refl _) rfl (by omega)
      (fun i hi => hP i (List.mem_of_mem_drop (List.mem_of_mem_take hi)))
    refine ⟨_, W1 ++ W' ++ W2, ?_, rfl, within_mid hW1.symm (by omega) h2⟩
    unfold leafArg
    rw [← hS, ← hA, ← hW1, argPar, ← h3]
    rfl
  merge_ok {k j} A L R B W1 W W2 pl len pw hv hL hR hA h1 h2 h3 h4 h5 h6 := by
    have hPs : ∀ l u, ∀ x ∈ seg a0 l u, x < v.length := fun l u x hx =>
      hP x (List.mem_of_mem_drop (List.mem_of_mem_take hx))
    have hp1 := par_perm (raw := keyLt o.rawLt v) (keyLt_swo ho.swo v) k (part n a0 k (2 * j))
    have hp2 := par_perm (raw := keyLt o.rawLt v) (keyLt_swo ho.swo v) k (part n a0 k (2 * j + 1))
    rw [← hL] at hp1
    rw [← hR] at hp2
    obtain ⟨W', e2, e3⟩ := parMerge_eq (computes_indirect o.lt v) A L R B W1 W W2
      (fun x hx => hPs _ _ x (hp1.mem_iff.1 hx)) (fun x hx => hPs _ _ x (hp2.mem_iff.1 hx)) h1 h2 h3 h4 h5 h6
    refine ⟨_, W', ?_, e2, e3⟩
    obtain ⟨m1, m2, m3, m4⟩ := node_mid (n := n) hv
    have h := nodeLo_le (n := n) hv
    have hsplit : part n a0 (k + 1) j = part n a0 k (2 * j) ++ part n a0 k (2 * j + 1) := by
      unfold part
      rw [← m1, ← m2, ← m3]
      exact seg_split (by omega) (by omega)
    have hlen : (part n a0 (k + 1) j).length / 2 = (part n a0 k (2 * j)).length := by
      rw [hsplit, List.length_append, ← hp1.length_eq, ← hp2.length_eq, ← h2, h4]
    rw [argPar, hlen, hsplit, List.take_left, List.drop_left, ← hL, ← hR]

end

/-- the index array that `np.argsort(kind='stable')` returns below 65536 keys, for every key list, NaN included. -/
theorem merge_exact (t : DT) (v : List (BitVec t.bits)) (w : List Nat) (hw : w.length = v.length / 2) :
    argsortSerial (opsArg t) .merge v (List.range v.length) w =
      some (argMs (keyLt (opsArg t).lt v) (keyLt (opsArg t).rawLt v) v.length (List.range v.length)) := by
  obtain ⟨W', _, h⟩ := (ems_all (opsArg_ok t) v v.length).1 v.length [] (List.range v.length) [] [] w [] (Nat.le_refl _) (by simp) (by omega)
    (fun i hi => List.mem_range.1 hi)
  simp only [List.nil_append, List.append_nil, List.length_nil, Nat.zero_add] at h
  simp [argsortSerial, argsortFn, h]

/-- the parallel merge argsort returns one and the same index array under every schedule, whatever the keys. -/
theorem parallel_argsort_deterministic (t : DT) (v : List (BitVec t.bits)) (w : List Nat)
    (hw : w.length = 8 * (v.length / 16 + 1)) (hn : 65536 ≤ v.length)
    (s : PS Nat) (hr : ParArgRun t .merge v (List.range v.length) w s) (hdone : s.completed = 8) :
    s.a = argPar (keyLt (opsArg t).lt v) (keyLt (opsArg t).rawLt v) 3 (List.range v.length) := by
  have h := (reach_inv (arg_exact_contract (opsArg_ok t) v rfl fun i hi => List.mem_range.1 hi)
    (by rw [List.length_range]; omega) rfl
    (fun _ h => by cases h) (inv_init w _ rfl (by rw [hw, List.length_range]; rfl) (fun _ => rfl)) hr).root hdone
  rw [h]
  have e1 : nodeLo (List.range v.length).length 3 0 = 0 := rfl
  have e2 : nodeHi (List.range v.length).length 3 0 = (List.range v.length).length := rfl
  rw [part, e1, e2, seg_all]

theorem keyLt_fn {t : DT} (v : List (BitVec t.bits)) (hb : t = .bool → ∀ x ∈ v, x.toNat ≤ 1) :
    keyLt (opsArg t).lt v = fun i j => decide (before t (keyOf v i) (keyOf v j)) := by
  funext i j
  rw [Bool.eq_iff_iff, keyLt_iff v hb, decide_eq_true_iff]

theorem rawLt_fn {t : DT} (v : List (BitVec t.bits)) (hb : t = .bool → ∀ x ∈ v, x.toNat ≤ 1) :
    keyLt (opsArg t).rawLt v = fun i j => decide ((value t (keyOf v i)).lt (value t (keyOf v j))) := by
  funext i j
  rw [Bool.eq_iff_iff, decide_eq_true_iff]
  cases t
  case bool =>
    refine (keyLt_iff v hb i j).trans ?_
    unfold before
    constructor
    · rintro (h | h)
      · exact h
      · exact absurd h.1 (by simp [value])
    · exact Or.inl
  all_goals exact ops_rawLt_iff _ _ _

/-- C20/C22: the index array that `np.argsort(kind='stable')` returns below 65536 keys, for every key list, NaN included: the one of
the reference merge sort, with "NaN last" as the one comparison and plain `<` as the other. -/
theorem C20_merge_exact (t : DT) (v : List (BitVec t.bits)) (hb : t = .bool → ∀ x ∈ v, x.toNat ≤ 1) (w : List Nat) (hw : w.length = v.length / 2) :
    argsortSerial (opsArg t) .merge v (List.range v.length) w =
      some (argMs (fun i j => decide (before t (keyOf v i) (keyOf v j)))
        (fun i j => decide ((value t (keyOf v i)).lt (value t (keyOf v j)))) v.length (List.range v.length)) := by
  rw [← keyLt_fn v hb, ← rawLt_fn v hb]
  exact merge_exact t v w hw

/-- Case: three float64 keys, one of them NaN. -/
example : argsortSerial (opsArg .f64) .merge [0x4000000000000000#64, 0x7ff8000000000000#64, 0x3ff0000000000000#64] (List.range 3) [0] =
    some [2, 0, 1] := by
  have h := C20_merge_exact .f64 [0x4000000000000000#64, 0x7ff8000000000000#64, 0x3ff0000000000000#64] (by intro h; cases h) [0] rfl
  refine h.trans ?_
  decide +kernel

/-- C22: the parallel merge argsort returns one and the same index array under every schedule, whatever the keys. -/
theorem C22_parallel_argsort_deterministic (t : DT) (v : List (BitVec t.bits)) (hb : t = .bool → ∀ x ∈ v, x.toNat ≤ 1) (w : List Nat)
    (hw : w.length = 8 * (v.length / 16 + 1)) (hn : 65536 ≤ v.length)
    (s : PS Nat) (hr : ParArgRun t .merge v (List.range v.length) w s) (hdone : s.completed = 8) :
    s.a = argPar (fun i j => decide (before t (keyOf v i) (keyOf v j)))
      (fun i j => decide ((value t (keyOf v i)).lt (value t (keyOf v j)))) 3 (List.range v.length) := by
  rw [← keyLt_fn v hb, ← rawLt_fn v hb]
  exact parallel_argsort_deterministic t v w hw hn s hr hdone

/-- Case: two completed runs on the same NaN-laden float64 keys with different scratch contents give the same array. -/
example (v : List (BitVec DT.f64.bits)) (hn : 65536 ≤ v.length) (hn' : v.length < 2 ^ 63) :
    ∃ s s', ParArgRun .f64 .merge v (List.range v.length) (List.replicate (8 * (v.length / 16 + 1)) 0) s ∧
      ParArgRun .f64 .merge v (List.range v.length) (List.replicate (8 * (v.length / 16 + 1)) 1) s' ∧ s.a = s'.a := by
  obtain ⟨s, h1, _, h2⟩ := C22_parallel_argsort_completes .f64 .merge v (List.replicate (8 * (v.length / 16 + 1)) 0) List.length_replicate hn hn' _ .start
  obtain ⟨s', h1', _, h2'⟩ := C22_parallel_argsort_completes .f64 .merge v (List.replicate (8 * (v.length / 16 + 1)) 1) List.length_replicate hn hn' _ .start
  exact ⟨s, s', h1, h1', (C22_parallel_argsort_deterministic .f64 v (by intro h; cases h) _ List.length_replicate hn s h1 h2).trans
    (C22_parallel_argsort_deterministic .f64 v (by intro h; cases h) _ List.length_replicate hn s' h1' h2').symm⟩

/-! ### With NaN keys the merge argsort is not stable -/

/-- Seven times 5.0, NaN, eight times 6.0, 5.5, fifteen times 9.0, 32 times 6.0. -/
def unstableKeys : List (BitVec DT.f64.bits) :=
  List.replicate 7 0x4014000000000000 ++ [0x7ff8000000000000] ++ List.replicate 8 0x4018000000000000 ++ [0x4016000000000000] ++
    List.replicate 15 0x4022000000000000 ++ List.replicate 32 0x4018000000000000

/-- C21 is false for keys with a NaN, even for the other keys: 32 and 8 are positions of the key 6.0, and 32 comes out before 8. -/
theorem C21_nan_violated : ∃ (v : List (BitVec DT.f64.bits)) (ix : List Nat) (p q i j : Nat), (∀ w : List Nat, w.length = v.length / 2 →
    argsortSerial (opsArg .f64) .merge v (List.range v.length) w = some ix) ∧
    p < q ∧ ix[p]? = some j ∧ ix[q]? = some i ∧ i < j ∧ v[i]? = v[j]? ∧ v[i]? = some 0x4018000000000000 := by
  refine ⟨unstableKeys, [0, 1, 2, 3, 4, 5, 6, 16, 32, 33, 34, 35, 36, 37, 38, 39, 40, 41, 42, 43, 44, 45, 46, 47, 48, 49, 50, 51, 52, 53, 54,
    55, 56, 57, 58, 59, 60, 61, 62, 63, 17, 18, 19, 20, 21, 22, 23, 24, 25, 26, 27, 28, 29, 30, 31, 7, 8, 9, 10, 11, 12, 13, 14, 15],
    8, 56, 8, 32, fun w hw => ?_, by decide, by decide, by decide, by decide, by decide, by decide⟩
  rw [merge_exact .f64 unstableKeys w hw]
  decide +kernel

/-! ### With NaN keys the parallel and the serial merge argsort differ -/

theorem argMs_big {lt raw : Nat → Nat → Bool} {f : Nat} {S L R : List Nat} {fl : Bool} (h : 15 < S.length)
    (hL : argMsL lt raw f (S.take (S.length / 2)) = (L, fl)) (hR : argMs lt raw f (S.drop (S.length / 2)) = R) :
    argMs lt raw (f + 1) S = if fl || needsMerge lt L R then mergeRef raw L R else L ++ R := by
  rw [argMs, if_pos h, hL, hR]

theorem argMsL_big {lt raw : Nat → Nat → Bool} {f : Nat} {S L R : List Nat} (h : 15 < S.length)
    (hL : argMs lt raw f (S.take (S.length / 2)) = L) (hR : argMs lt raw f (S.drop (S.length / 2)) = R) :
    argMsL lt raw (f + 1) S = if needsMerge lt L R then (mergeRef lt L R, true) else (L ++ R, false) := by
  rw [argMsL, if_pos h, hL, hR]

theorem needsMerge_false {lt : Nat → Nat → Bool} {L R : List Nat} (h : ∀ x ∈ R, ∀ y ∈ L, lt x y = false) : needsMerge lt L R = false := by
  unfold needsMerge
  split
  · rename_i x y hx hy
    exact h x (List.mem_of_mem_head? hx) y (List.mem_of_getLast? hy)
  · rfl

theorem mergeRef_append {lt : Nat → Nat → Bool} {L R : List Nat} (h : ∀ x ∈ R, ∀ y ∈ L, lt x y = false) : mergeRef lt L R = L ++ R := by
  induction L with
  | nil => simp [mergeRef]
  | cons l L ih =>
    cases R with
    | nil => simp [mergeRef]
    | cons r R =>
      rw [mergeRef, if_neg (by rw [h r (by simp) l (by simp)]; simp), ih (fun x hx y hy => h x hx y (List.mem_cons_of_mem _ hy))]
      rfl

theorem mergeRef_front {lt : Nat → Nat → Bool} {L1 L2 R : List Nat} (h : ∀ x ∈ R, ∀ y ∈ L1, lt x y = false) :
    mergeRef lt (L1 ++ L2) R = L1 ++ mergeRef lt L2 R := by
  induction L1 with
  | nil => simp
  | cons l L ih =>
    cases R with
    | nil => cases L2 <;> simp [mergeRef]
    | cons r R =>
      rw [List.cons_append, mergeRef, if_neg (by rw [h r (by simp) l (by simp)]; simp), ih (fun x hx y hy => h x hx y (List.mem_cons_of_mem _ hy))]
      rfl

theorem mergeRef_swap {lt : Nat → Nat → Bool} {L R : List Nat} (h : ∀ x ∈ R, ∀ y ∈ L, lt x y = true) : mergeRef lt L R = R ++ L := by
  induction R with
  | nil => cases L <;> simp [mergeRef]
  | cons r R ih =>
    cases L with
    | nil => simp [mergeRef]
    | cons l L =>
      rw [mergeRef, if_pos (h r (by simp) l (by simp)), ih (fun x hx y hy => h x (List.mem_cons_of_mem _ hx) y hy)]
      rfl

/-- A list in which nothing is less than an earlier element is returned as it is. -/
theorem argMs_asc {lt raw : Nat → Nat → Bool} (hs : SWO lt) (f : Nat) : ∀ S : List Nat, Asc lt S → argMs lt raw f S = S ∧ argMsL lt raw f S = (S, false) := by
  induction f with
  | zero => intro S _; exact ⟨by rw [argMs], by rw [argMsL]⟩
  | succ f ih =>
    intro S h
    by_cases hb : 15 < S.length
    · have hsp := List.take_append_drop (S.length / 2) S
      have h' := h
      unfold Asc at h'
      rw [← hsp, List.pairwise_append] at h'
      have h1 := ih _ h'.1
      have h2 := ih _ h'.2.1
      have hn := needsMerge_false (fun x hx y hy => h'.2.2 y hy x hx)
      refine ⟨?_, ?_⟩
      · rw [argMs_big hb h1.2 h2.1, hn, Bool.or_self, if_neg (by simp), hsp]
      · rw [argMsL_big hb h1.1 h2.1, hn, if_neg (by simp), hsp]
    · have := SS.eq hs (smallRef_SS hs S) (SS.refl h)
      refine ⟨?_, ?_⟩
      · rw [argMs, if_neg hb, this]
      · rw [argMsL, if_neg hb, this]

theorem argPar_append {lt raw : Nat → Nat → Bool} {k : Nat} {S : List Nat} (hL : argPar lt raw k (S.take (S.length / 2)) = S.take (S.length / 2))
    (hR : argPar lt raw k (S.drop (S.length / 2)) = S.drop (S.length / 2))
    (h : needsMerge lt (S.take (S.length / 2)) (S.drop (S.length / 2)) = false) : argPar lt raw (k + 1) S = S := by
  rw [argPar, hL, hR, h, if_neg (by simp), List.take_append_drop]

/-- 4095 times 0.0, NaN, 4096 times 1.0, 57344 times 2.0. -/
def splitKeys : List (BitVec DT.f64.bits) :=
  List.replicate 4095 0 ++ ([0x7ff8000000000000] ++ (List.replicate 4096 0x3ff0000000000000 ++ List.replicate 57344 0x4000000000000000))

theorem splitKeys_length : splitKeys.length = 65536 := by
  unfold splitKeys
  rw [List.length_append, List.length_append, List.length_append, List.length_replicate, List.length_replicate, List.length_replicate]; rfl

/-- The key at a position. -/
def splitKey (i : Nat) : BitVec DT.f64.bits :=
  if i < 4095 then 0 else if i = 4095 then 0x7ff8000000000000 else if i < 8192 then 0x3ff0000000000000 else 0x4000000000000000

theorem splitKeys_get {i : Nat} (hi : i < 65536) : splitKeys[i]? = some (splitKey i) := by
  unfold splitKeys splitKey
  rw [List.getElem?_append]
  split
  · rename_i h
    rw [List.length_replicate] at h
    rw [if_pos h, List.getElem?_replicate, if_pos h]
  · rename_i h
    rw [List.length_replicate] at h ⊢
    rw [if_neg h, List.getElem?_append]
    split
    · rename_i h2
      simp only [List.length_cons, List.length_nil] at h2
      have : i = 4095 := by omega
      subst this; rfl
    · rename_i h2
      simp only [List.length_cons, List.length_nil] at h2
      rw [if_neg (by omega), List.getElem?_append]
      simp only [List.length_cons, List.length_nil, List.length_replicate]
      split
      · rw [if_pos (by omega), List.getElem?_replicate, if_pos (by omega)]
      · rw [if_neg (by omega), List.getElem?_replicate, if_pos (by omega)]

/-- The order of the keys, NaN last. -/
def splitRank (i : Nat) : Nat := if i < 4095 then 0 else if i = 4095 then 3 else if i < 8192 then 1 else 2

abbrev sLt : Nat → Nat → Bool := keyLt (opsArg .f64).lt splitKeys
abbrev sRaw : Nat → Nat → Bool := keyLt (opsArg .f64).rawLt splitKeys

theorem split_lt {i j : Nat} (hi : i < 65536) (hj : j < 65536) : sLt i j = decide (splitRank i < splitRank j) := by
  unfold sLt keyLt
  rw [splitKeys_get hi, splitKeys_get hj, Option.getD_some, Option.getD_some]
  unfold splitKey splitRank
  split_ifs <;> decide

theorem split_raw {i j : Nat} (hi : i < 65536) (hj : j < 65536) :
    sRaw i j = (decide (splitRank i < splitRank j) && decide (j ≠ 4095)) := by
  unfold sRaw keyLt
  rw [splitKeys_get hi, splitKeys_get hj, Option.getD_some, Option.getD_some]
  unfold splitKey splitRank
  split_ifs <;> simp_all <;> decide

theorem sLt_swo : SWO sLt := keyLt_swo (opsArg_ok .f64).swo _

/-- A block of positions that does not have the NaN before another key. -/
theorem block_asc {a n : Nat} (h : a + n ≤ 65536) (h2 : 4095 < a ∨ a + n ≤ 4096) : Asc sLt (List.range' a n) := by
  unfold Asc
  rw [List.pairwise_iff_getElem]
  intro i j hi hj hij
  simp only [List.length_range'] at hi hj
  rw [List.getElem_range', List.getElem_range', split_lt (by omega) (by omega)]
  unfold splitRank
  simp only [decide_eq_false_iff_not]
  split_ifs <;> omega

theorem take_block (a n k : Nat) (h : k ≤ n) : (List.range' a n).take k = List.range' a k := by
  exact List.take_range'_of_length_ge h

theorem drop_block (a n k : Nat) : (List.range' a n).drop k = List.range' (a + k) (n - k) := by
  rw [List.drop_range']; congr 1; omega

/-- What the first 8192 positions give in the serial sort, where they are the left half of a left half. -/
theorem first_left (f : Nat) : argMsL sLt sRaw (f + 1) (List.range' 0 8192) = (List.range' 0 4095 ++ (List.range' 4096 4096 ++ [4095]), true) := by
  have hl : (List.range' 0 8192).length = 8192 := List.length_range'
  rw [argMsL_big (L := List.range' 0 4096) (R := List.range' 4096 4096) (by omega)
    (by rw [hl, take_block _ _ _ (by omega)]; exact (argMs_asc sLt_swo f _ (block_asc (by omega) (by omega))).1)
    (by rw [hl, drop_block]; exact (argMs_asc sLt_swo f _ (block_asc (by omega) (by omega))).1)]
  have e : List.range' 0 4096 = List.range' 0 4095 ++ [4095] := by rw [List.range'_concat]
  have h4 : needsMerge sLt (List.range' 0 4096) (List.range' 4096 4096) = true := by
    rw [needs_eq (L0 := List.range' 0 4095) (y := 4095) (x := 4096) (R0 := List.range' 4097 4095) e (by rw [List.range'_succ]), split_lt (by omega) (by omega)]
    decide
  rw [if_pos h4, e, mergeRef_front, mergeRef_swap]
  · intro x hx y hy
    rw [List.mem_singleton] at hy
    rw [List.mem_range'_1] at hx
    rw [split_lt (by omega) (by omega), hy]
    unfold splitRank
    rw [decide_eq_true_eq]
    split_ifs <;> omega
  · intro x hx y hy
    rw [List.mem_range'_1] at hx hy
    rw [split_lt (by omega) (by omega)]
    unfold splitRank
    rw [decide_eq_false_iff_not]
    split_ifs <;> omega

/-- The first 8192 positions, the NaN moved behind the 1.0s. -/
def movedNaN : List Nat := List.range' 0 4095 ++ (List.range' 4096 4096 ++ [4095])

theorem movedNaN_mem {y : Nat} (h : y ∈ movedNaN) : y = 4095 ∨ (y < 8192 ∧ y ≠ 4095) := by
  unfold movedNaN at h
  simp only [List.mem_append, List.mem_range'_1, List.mem_singleton] at h
  omega

theorem first_16384 (f : Nat) : argMs sLt sRaw (f + 1 + 1) (List.range' 0 16384) = movedNaN ++ List.range' 8192 8192 := by
  have hl : (List.range' 0 16384).length = 16384 := List.length_range'
  rw [argMs_big (L := movedNaN) (fl := true) (R := List.range' 8192 8192) (by omega)
    (by rw [hl, take_block _ _ _ (by omega)]; exact first_left f)
    (by rw [hl, drop_block]; exact (argMs_asc sLt_swo _ _ (block_asc (by omega) (by omega))).1)]
  rw [Bool.true_or, if_pos rfl, mergeRef_append]
  intro x hx y hy
  rw [List.mem_range'_1] at hx
  have hy := movedNaN_mem hy
  rw [split_raw (by omega) (by omega), Bool.and_eq_false_iff]
  rcases hy with rfl | hy
  · right; simp
  · left
    unfold splitRank
    rw [decide_eq_false_iff_not]
    split_ifs <;> omega

theorem not_needed {L R L0 R0 : List Nat} {x y : Nat} (hL : L = L0 ++ [y]) (hR : R = x :: R0) (hx : x < 65536) (hy : y < 65536)
    (h : ¬ splitRank x < splitRank y) : needsMerge sLt L R = false := by
  rw [needs_eq hL hR, split_lt hx hy, decide_eq_false h]

theorem first_32768 (f : Nat) : argMsL sLt sRaw (f + 1 + 1 + 1) (List.range' 0 32768) = (movedNaN ++ List.range' 8192 8192 ++ List.range' 16384 16384, false) := by
  have hl : (List.range' 0 32768).length = 32768 := List.length_range'
  rw [argMsL_big (L := movedNaN ++ List.range' 8192 8192) (R := List.range' 16384 16384) (by omega)
    (by rw [hl, take_block _ _ _ (by omega)]; exact first_16384 f)
    (by rw [hl, drop_block]; exact (argMs_asc sLt_swo _ _ (block_asc (by omega) (by omega))).1)]
  rw [not_needed (L0 := movedNaN ++ List.range' 8192 8191) (y := 16383) (x := 16384) (R0 := List.range' 16385 16383)
    (by rw [List.range'_concat, List.append_assoc]) (by rw [List.range'_succ]) (by omega) (by omega) (by decide)]
  rfl

theorem all_65536 (f : Nat) : argMs sLt sRaw (f + 1 + 1 + 1 + 1) (List.range' 0 65536) =
    movedNaN ++ List.range' 8192 8192 ++ List.range' 16384 16384 ++ List.range' 32768 32768 := by
  have hl : (List.range' 0 65536).length = 65536 := List.length_range'
  rw [argMs_big (L := movedNaN ++ List.range' 8192 8192 ++ List.range' 16384 16384) (R := List.range' 32768 32768) (fl := false) (by omega)
    (by rw [hl, take_block _ _ _ (by omega)]; exact first_32768 f)
    (by rw [hl, drop_block]; exact (argMs_asc sLt_swo _ _ (block_asc (by omega) (by omega))).1)]
  rw [not_needed (L0 := movedNaN ++ List.range' 8192 8192 ++ List.range' 16384 16383) (y := 32767) (x := 32768) (R0 := List.range' 32769 32767)
    (by rw [show List.range' 16384 16384 = List.range' 16384 16383 ++ [32767] from List.range'_concat, ← List.append_assoc]) (by rw [List.range'_succ]) (by omega) (by omega) (by decide)]
  rfl

/-- The piece of the parallel sort that contains the NaN stays as it is. -/
theorem par_first : argPar sLt sRaw 0 (List.range' 0 8192) = List.range' 0 8192 := by
  have hl : (List.range' 0 8192).length = 8192 := List.length_range'
  rw [argPar, hl]
  rw [argMs_big (f := 8191) (L := List.range' 0 4096) (fl := false) (R := List.range' 4096 4096) (by omega)
    (by rw [hl, take_block _ _ _ (by omega)]; exact (argMs_asc sLt_swo _ _ (block_asc (by omega) (by omega))).2)
    (by rw [hl, drop_block]; exact (argMs_asc sLt_swo _ _ (block_asc (by omega) (by omega))).1)]
  have e : List.range' 0 4096 ++ List.range' 4096 4096 = List.range' 0 8192 := List.range'_append_1
  rw [mergeRef_append, e, ite_self]
  intro x hx y hy
  rw [List.mem_range'_1] at hx hy
  rw [split_raw (by omega) (by omega), Bool.and_eq_false_iff]
  by_cases h : y = 4095
  · right; simp [h]
  · left
    unfold splitRank
    rw [decide_eq_false_iff_not]
    split_ifs <;> omega

theorem par_block (k : Nat) : ∀ a n, a + n ≤ 65536 → 4095 < a → argPar sLt sRaw k (List.range' a n) = List.range' a n := by
  induction k with
  | zero => intro a n h1 h2; exact (argMs_asc sLt_swo _ _ (block_asc h1 (Or.inl h2))).1
  | succ k ih =>
    intro a n h1 h2
    have hl : (List.range' a n).length = n := List.length_range'
    refine argPar_append ?_ ?_ (needsMerge_false ?_)
    · rw [hl, take_block _ _ _ (by omega)]; exact ih _ _ (by omega) h2
    · rw [hl, drop_block]; exact ih _ _ (by omega) (by omega)
    · intro x hx y hy
      rw [hl, drop_block, List.mem_range'_1] at hx
      rw [hl, take_block _ _ _ (by omega), List.mem_range'_1] at hy
      rw [split_lt (by omega) (by omega)]
      unfold splitRank
      rw [decide_eq_false_iff_not]
      split_ifs <;> omega

theorem par_step {k n : Nat} (hn : 8192 ≤ n) (hn2 : n ≤ 32768) (ih : argPar sLt sRaw k (List.range' 0 n) = List.range' 0 n) :
    argPar sLt sRaw (k + 1) (List.range' 0 (2 * n)) = List.range' 0 (2 * n) := by
  have hl : (List.range' 0 (2 * n)).length / 2 = n := by rw [List.length_range']; omega
  refine argPar_append ?_ ?_ ?_
  · rw [hl, take_block _ _ _ (by omega), ih]
  · rw [hl, drop_block]; exact par_block _ _ _ (by omega) (by omega)
  · rw [hl, take_block _ _ _ (by omega), drop_block]
    obtain ⟨m, rfl⟩ : ∃ m, n = m + 1 := ⟨n - 1, by omega⟩
    refine not_needed (L0 := List.range' 0 m) (y := m) (x := m + 1) (R0 := List.range' (m + 2) m)
      (by rw [List.range'_concat]; simp) (by rw [show 0 + (m + 1) = m + 1 by omega, show 2 * (m + 1) - (m + 1) = m + 1 by omega, List.range'_succ]) (by omega) (by omega) ?_
    unfold splitRank
    split_ifs <;> omega

/-- C22 is false for keys with a NaN: with 65536 keys the parallel merge argsort (which every schedule completes with one and the same
result) and the serial one return different index arrays. -/
theorem C22_nan_violated : ∃ v : List (BitVec DT.f64.bits), v.length = 65536 ∧
    (∀ w : List Nat, w.length = v.length / 2 → ∃ ix, argsortSerial (opsArg .f64) .merge v (List.range v.length) w = some ix ∧ ix[4095]? = some 4096) ∧
    ∀ (w : List Nat) (s : PS Nat), w.length = 8 * (v.length / 16 + 1) → ParArgRun .f64 .merge v (List.range v.length) w s → s.completed = 8 →
      s.a[4095]? = some 4095 := by
  refine ⟨splitKeys, splitKeys_length, fun w hw => ⟨_, merge_exact .f64 splitKeys w hw, ?_⟩, fun w s hw hr hd => ?_⟩
  · rw [splitKeys_length, List.range_eq_range']
    have := all_65536 65532
    rw [this]
    rw [List.getElem?_append_left (by simp [movedNaN]), List.getElem?_append_left (by simp [movedNaN]), List.getElem?_append_left (by simp [movedNaN])]
    unfold movedNaN
    rw [List.getElem?_append_right (by simp), List.length_range', List.getElem?_append_left (by simp), List.getElem?_range' (by omega)]
  · rw [parallel_argsort_deterministic .f64 splitKeys w hw (by rw [splitKeys_length]) s hr hd]
    rw [splitKeys_length, List.range_eq_range']
    have h := par_step (k := 2) (n := 32768) (by omega) (by omega) (par_step (k := 1) (n := 16384) (by omega) (by omega)
      (par_step (k := 0) (n := 8192) (by omega) (by omega) par_first))
    rw [h, List.getElem?_range' (by omega)]

end Pnumpy.Props
