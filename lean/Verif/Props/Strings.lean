import Verif.Proofs.ParStrings
/-
Property theorems C26: sorting of fixed-width strings (dtype 'S': units of 8 bits, 'U': units of 32 bits) and of void.

`= some ..` includes: every access was inside the array, the workspace and the compared strings, and the call
returned.
-/
namespace Pnumpy.Props
open Spec Pnumpy.Sort Pnumpy.ParSort Pnumpy.Str

/-- Key `i` of an array of strings. -/
abbrev strOf {u : Nat} (v : List (List (BitVec u))) (i : Nat) : List (BitVec u) := v[i]?.getD []

/-- C26: comparing two strings of the same width reads only the strings and answers by the lexicographic order of
their code units. -/
theorem C26_compare {u : Nat} (len : Nat) (s t : List (BitVec u)) (hs : s.length = len) (ht : t.length = len) :
    ∃ b, strLt len s t = some b ∧ (b = true ↔ LexBefore s t) := by
  refine ⟨_, computes_str len s t hs ht, ?_⟩
  rw [lexBefore_iff (by omega)]
  simp [lexKey]

/-- Case: "ab" and "aa". -/
example := C26_compare 2 [0x61#8, 0x62#8] [0x61#8, 0x61#8] rfl rfl

/-- C26: the in-place sort of an array of fixed-width strings leaves the same strings in lexicographic order. -/
theorem C26_sort {u : Nat} (len : Nat) (a w : List (List (BitVec u))) (ha : ∀ s ∈ a, s.length = len)
    (hw : w.length = a.length / 2) :
    ∃ a', sortStr (strLt len) a w = some a' ∧ IsSortOf LexBefore a' a := by
  obtain ⟨a', h1, h2⟩ := sortStr_ok (computes_str len) (lexKey_swo _) a w hw ha
  refine ⟨a', h1, h2.perm, ?_⟩
  refine List.Pairwise.imp_of_mem (fun {x y} hx hy h => ?_) h2.asc
  rw [lexBefore_iff (by rw [ha y (h2.perm.mem_iff.1 hy), ha x (h2.perm.mem_iff.1 hx)])]
  simpa [lexKey] using h

theorem keyLt_lex {u : Nat} {len : Nat} (v : List (List (BitVec u))) (hv : ∀ s ∈ v, s.length = len) {i j : Nat}
    (hi : i < v.length) (hj : j < v.length) :
    keyLt (lexKey nums) v i j = true ↔ LexBefore (strOf v i) (strOf v j) := by
  unfold keyLt strOf
  rw [List.getElem?_eq_getElem hi, List.getElem?_eq_getElem hj]
  simp only [Option.getD_some]
  rw [lexBefore_iff (by rw [hv _ (List.getElem_mem hi), hv _ (List.getElem_mem hj)])]
  simp [lexKey]

/-- C26: the serial argsort of strings returns a permutation of the indices along which the strings ascend, equal
strings in their original order. -/
theorem C26_argsort {u : Nat} (len : Nat) (v : List (List (BitVec u))) (w : List Nat) (hv : ∀ s ∈ v, s.length = len)
    (hw : w.length = v.length / 2) :
    ∃ ix, argsortStr (strLt len) v (List.range v.length) w = some ix ∧
      IsStableArgsort LexBefore (strOf v) v.length ix := by
  obtain ⟨ix, h1, h2⟩ := argsortStr_ok (computes_str len) (lexKey_swo _) v (List.range v.length) w (by simpa using hw) hv
    (fun i hi => List.mem_range.1 hi)
  refine ⟨ix, h1, h2.perm, ?_⟩
  have hmem : ∀ i ∈ ix, i < v.length := fun i hi => List.mem_range.1 (h2.perm.mem_iff.1 hi)
  refine List.Pairwise.imp_of_mem (fun {i j} hi hj h => ?_) (h2.stableArg (keyLt_swo (lexKey_swo _) v))
  rw [Bool.eq_false_iff, ne_eq, Bool.eq_false_iff, ne_eq, keyLt_lex v hv (hmem i hi) (hmem j hj),
    keyLt_lex v hv (hmem j hj) (hmem i hi)] at h
  exact h

/-- C26: sort and argsort agree: indexing with the argsort gives the sorted array. -/
theorem C26_sort_argsort_agree {u : Nat} (len : Nat) (v w : List (List (BitVec u))) (w' : List Nat) (a' : List (List (BitVec u)))
    (ix : List Nat) (hv : ∀ s ∈ v, s.length = len)
    (h1 : sortStr (strLt len) v w = some a') (hw : w.length = v.length / 2)
    (h2 : argsortStr (strLt len) v (List.range v.length) w' = some ix) (hw' : w'.length = v.length / 2) :
    ix.map (strOf v) = a' := by
  obtain ⟨b, e1, e2⟩ := C26_sort len v w hv hw
  obtain ⟨jx, f1, f2⟩ := C26_argsort len v w' hv hw'
  rw [h1] at e1; obtain rfl := Option.some.inj e1
  rw [h2] at f1; obtain rfl := Option.some.inj f1
  have hp : (ix.map (strOf v)).Perm a' := by
    refine ((f2.1.map _).trans ?_).trans e2.1.symm
    have : (List.range v.length).map (strOf v) = v := by
      apply List.ext_getElem
      · simp
      · intro i h3 h4; simp [strOf, List.getElem?_eq_getElem h4]
    rw [this]
  have hlen : ∀ s ∈ a', s.length = len := fun s hs => hv s (e2.1.mem_iff.1 hs)
  refine hp.eq_of_pairwise (le := fun x y => ¬ LexBefore y x) ?_ ?_ e2.2
  · intro x y hx hy h3 h4
    have hx' := hlen x (hp.mem_iff.1 hx)
    rw [lexBefore_iff (by rw [hlen y hy, hx'])] at h3
    rw [lexBefore_iff (by rw [hlen y hy, hx'])] at h4
    exact nums_inj (le_antisymm (not_lt.1 h3) (not_lt.1 h4))
  · exact List.pairwise_map.2 (f2.2.imp fun h => h.1)

/-- A strict total order on the items of `len` bytes. -/
structure TotalOn (len : Nat) (r : List (BitVec 8) → List (BitVec 8) → Prop) : Prop where
  asymm : ∀ s t, s.length = len → t.length = len → r s t → ¬ r t s
  trans : ∀ s t z, s.length = len → t.length = len → z.length = len → r s t → r t z → r s z
  total : ∀ s t, s.length = len → t.length = len → s ≠ t → r s t ∨ r t s

/-- C26 (partial: not the byte order, see `C26_void_order_violated`): the argsort of void items is a stable argsort for
one fixed total order on the items: in particular identical items become adjacent, in their original order. -/
theorem C26_void_argsort_partial (len : Nat) : ∃ r, TotalOn len r ∧
    ∀ (v : List (List (BitVec 8))) (w : List Nat), (∀ s ∈ v, s.length = len) → w.length = v.length / 2 →
      ∃ ix, argsortStr (voidLt len) v (List.range v.length) w = some ix ∧ IsStableArgsort r (strOf v) v.length ix := by
  refine ⟨fun s t => pieces s (sizes len) < pieces t (sizes len), ⟨?_, ?_, ?_⟩, ?_⟩
  · intro s t _ _ h; exact lt_asymm h
  · intro s t z _ _ _ h1 h2; exact lt_trans h1 h2
  · intro s t hs ht hne
    rcases lt_trichotomy (pieces s (sizes len)) (pieces t (sizes len)) with h | h | h
    · exact Or.inl h
    · exact absurd (pieces_inj (sizes len) (by rw [sizes_sum]; exact hs) (by rw [sizes_sum]; exact ht) h) hne
    · exact Or.inr h
  · intro v w hv hw
    obtain ⟨ix, h1, h2⟩ := argsortStr_ok (computes_void len) (lexKey_swo _) v (List.range v.length) w (by simpa using hw) hv
      (fun i hi => List.mem_range.1 hi)
    refine ⟨ix, h1, h2.perm, ?_⟩
    have hmem : ∀ i ∈ ix, i < v.length := fun i hi => List.mem_range.1 (h2.perm.mem_iff.1 hi)
    refine List.Pairwise.imp_of_mem (fun {i j} hi hj h => ?_) (h2.stableArg (keyLt_swo (lexKey_swo _) v))
    unfold keyLt lexKey at h
    unfold strOf
    have e : ∀ q, q < v.length → (v[q]?.getD default) = (v[q]?.getD []) := fun q hq => by
      rw [List.getElem?_eq_getElem hq]; rfl
    rw [e i (hmem i hi), e j (hmem j hj)] at h
    simpa using h

/-- C26, violated for void: two items are put into the order opposite to their byte order. -/
theorem C26_void_order_violated : ∃ (v : List (List (BitVec 8))), (∀ s ∈ v, s.length = 2) ∧
    argsortStr (voidLt 2) v (List.range v.length) [0] = some [1, 0] ∧ LexBefore (strOf v 0) (strOf v 1) := by
  refine ⟨[[0, 1], [1, 0]], by decide, ?_, ⟨[], 0, 1, [1], [0], rfl, rfl, by decide⟩⟩
  obtain ⟨ix, h1, h2⟩ := argsortStr_ok (computes_void 2) (lexKey_swo _) [[0, 1], [1, 0]] [0, 1] [0] rfl (by decide) (by decide)
  have : ix = [1, 0] := by
    refine SS.eq (keyLt_swo (lexKey_swo _) _) h2 ⟨by decide, ?_, fun c => ?_⟩
    · have hs : sizes 2 = [2] := by rw [sizes]; simp [tailSizes]
      simp only [hs]
      exact List.pairwise_pair.2 (by decide)
    · have hs : sizes 2 = [2] := by rw [sizes]; simp [tailSizes]
      simp only [hs]
      have hswo := keyLt_swo (lexKey_swo fun s => pieces s [2]) [[0, 1], [1, 0]]
      have a : keyLt (lexKey fun s => pieces s [2]) [[0, 1], [1, 0]] 1 0 = true := by decide
      generalize keyLt (lexKey fun s => pieces s [2]) [[0, 1], [1, 0]] = r at a hswo ⊢
      cases h0 : eqv r c 0 <;> cases h1 : eqv r c 1 <;> simp only [List.filter_cons, h0, h1, List.filter_nil] <;> try rfl
      unfold eqv at h0 h1
      simp only [Bool.and_eq_true, Bool.not_eq_true'] at h0 h1
      rcases hswo.negTrans 1 c 0 a with h | h
      · rw [h1.1] at h; cases h
      · rw [h0.2] at h; cases h
  rw [← this, ← h1]; rfl

/-! ### Parallel argsort -/

/-- States of a parallel argsort of `v.length >= 65536` strings. -/
def ParStrArgRun {u : Nat} (len : Nat) (v : List (List (BitVec u))) (w : List Nat) (s : PS Nat) : Prop :=
  Reach (leafArgStr (byIndex (strLt len) v)) (parMergeStr (byIndex (strLt len) v)) v.length none (init (List.range v.length) w) s

/-- C26/C22/C23 (partial: order, see `C26_parallel_argsort_violated`): every run of the parallel argsort of strings can
be completed without a bad access, and a completed one returns every index exactly once. -/
theorem C26_parallel_argsort_partial {u : Nat} (len : Nat) (v : List (List (BitVec u))) (w : List Nat)
    (hv : ∀ s ∈ v, s.length = len) (hw : w.length = 8 * (v.length / 16 + 1)) (hn : 65536 ≤ v.length)
    (s : PS Nat) (hr : ParStrArgRun len v w s) :
    (∃ s', ParStrArgRun len v w s' ∧ Reach (leafArgStr (byIndex (strLt len) v)) (parMergeStr (byIndex (strLt len) v))
      v.length none s s' ∧ s'.completed = 8) ∧
    (s.completed = 8 → s.a.Perm (List.range v.length)) := by
  have hc := strPerm_contract (computes_str (u := u) len) (lexKey_swo nums) v hv (by omega)
  have hi : Inv v.length (onNode v.length (List.range v.length) fun S' S => S'.Perm S) none (List.range v.length)
      (init (List.range v.length) w) := inv_init w _ (by simp) hw (fun _ => rfl)
  refine ⟨exists_complete hc (by omega) (by simp) (fun _ h => by cases h) hi hr, fun h8 => ?_⟩
  exact (reach_inv hc (by omega) (by simp) (fun _ h => by cases h) hi hr).sorted (by simp) h8

/-- C26, violated: the parallel argsort of the array `b, a, a, ..., a` (at least 65536 strings, `a` before `b`) never
returns an ascending order, whatever the schedule. -/
theorem C26_parallel_argsort_violated {u : Nat} (len : Nat) (a b : List (BitVec u)) (ha : a.length = len) (hb : b.length = len)
    (hab : LexBefore a b) (m : Nat) (hm : 65535 ≤ m) (w : List Nat) (hw : w.length = 8 * ((m + 1) / 16 + 1))
    (s : PS Nat) (hr : ParStrArgRun len (b :: List.replicate m a) w s) (h8 : s.completed = 8) :
    ¬ IsArgsort LexBefore (strOf (b :: List.replicate m a)) (m + 1) s.a := by
  have hlt : lexKey nums a b = true := by
    unfold lexKey
    rw [decide_eq_true_eq]
    exact (lexBefore_iff (by omega)).1 hab
  have hc := stuck_contract (computes_str (u := u) len) (lexKey_swo nums) ha hb hlt (m := m) (by omega)
  have hl : (b :: List.replicate m a).length = m + 1 := by simp
  unfold ParStrArgRun at hr
  rw [hl] at hr
  have hi : Inv (m + 1) (fun k j S => S = stuck (m + 1) k j) none (List.range (m + 1)) (init (List.range (m + 1)) w) :=
    inv_init w _ (by simp) hw (fun _ => rfl)
  have h := (reach_inv hc (by omega) (by simp) (fun _ h => by cases h) hi hr).root h8
  intro ⟨_, hasc⟩
  rw [h] at hasc
  have hv00 : Valid 0 0 := ⟨by omega, by decide⟩
  have hb00 := node_big (n := m + 1) (by omega) hv00
  have e : nodeHi (m + 1) 3 0 = m + 1 := rfl
  have e' : nodeHi (m + 1) 0 0 = (m + 1) / 2 / 2 / 2 := rfl
  rw [stuck, if_pos rfl, List.append_assoc] at hasc
  have h1 := (List.pairwise_append.1 hasc).2.1
  have h2 := (List.pairwise_append.1 h1).2.2 0 (by simp) (nodeHi (m + 1) 0 0) (by
    rw [List.mem_range'_1, e, e']; omega)
  apply h2
  obtain ⟨q, hq⟩ : ∃ q, nodeHi (m + 1) 0 0 = q + 1 := ⟨nodeHi (m + 1) 0 0 - 1, by omega⟩
  have : (List.replicate m a)[q]? = some a := by rw [List.getElem?_replicate, if_pos (by omega)]
  simp only [strOf, hq, List.getElem?_cons_succ, this, List.getElem?_cons_zero, Option.getD_some]
  exact hab

/-- Such runs exist: completing the parallel argsort of "b", "a", "a", ... gives a wrong order. -/
example : ∃ (v : List (List (BitVec 8))) (w : List Nat) (s : PS Nat), ParStrArgRun 1 v w s ∧ s.completed = 8 ∧
    ¬ IsArgsort LexBefore (strOf v) v.length s.a := by
  have hl : ([0x62#8] :: List.replicate 65535 [0x61#8]).length = 65536 := by rw [List.length_cons, List.length_replicate]
  have hw : (List.replicate (8 * (65536 / 16 + 1)) 0).length = 8 * (65536 / 16 + 1) := by rw [List.length_replicate]
  obtain ⟨⟨s, h1, _, h2⟩, _⟩ := C26_parallel_argsort_partial 1 ([0x62#8] :: List.replicate 65535 [0x61#8])
    (List.replicate (8 * (65536 / 16 + 1)) 0)
    (by
      intro s hs
      rcases List.mem_cons.1 hs with rfl | hs
      · rfl
      · rw [(List.mem_replicate.1 hs).2]; rfl) (by rw [hl, hw]) (by rw [hl]) _ .start
  refine ⟨_, _, s, h1, h2, ?_⟩
  rw [hl]
  exact C26_parallel_argsort_violated 1 [0x61#8] [0x62#8] rfl rfl ⟨[], _, _, [], [], rfl, rfl, by decide⟩ 65535 (by omega) _
    (by rw [hw]) s h1 h2

/-! ### Parallel in-place sort -/

/-- States of a parallel in-place sort of `a.length >= 65536` strings of `len` units. -/
def ParStrSortRun {u len : Nat} (f : Nat → List (FStr u len)) (a w : List (FStr u len)) (s : PS (FStr u len)) : Prop :=
  Reach (leafSortStr fstrLt f) parMergeChars a.length none (init a w) s

/-- C26/C22 (partial: one-character strings only, see `C26_parallel_sort_violated`): the parallel sort of strings of
one character returns the same strings in ascending order, and always can complete. -/
theorem C26_parallel_sort_partial {u : Nat} (f : Nat → List (FStr u 1)) (hf : ∀ m, (f m).length = m) (a w : List (FStr u 1))
    (hw : w.length = 8 * (a.length / 16 + 1)) (hn : 65536 ≤ a.length) (s : PS (FStr u 1)) (hr : ParStrSortRun f a w s) :
    (∃ s', ParStrSortRun f a w s' ∧ Reach (leafSortStr fstrLt f) parMergeChars a.length none s s' ∧ s'.completed = 8) ∧
    (s.completed = 8 → IsSortOf LexBefore (s.a.map fun c => [c 0]) (a.map fun c => [c 0])) := by
  have hc := (one_contract u f hf a.length).node (a0 := a) rfl (fun _ _ => trivial)
  have hi : Inv a.length (onNode a.length a fun S' S => SS BitVec.ult (S'.map (· 0)) (S.map (· 0))) none a (init a w) :=
    inv_init w _ rfl hw (fun _ => rfl)
  refine ⟨exists_complete hc (by omega) rfl (fun _ h => by cases h) hi hr, fun h8 => ?_⟩
  have h := (reach_inv hc (by omega) rfl (fun _ h => by cases h) hi hr).sorted rfl h8
  constructor
  · have := h.perm.map (fun c => [c])
    rw [List.map_map, List.map_map] at this; exact this
  · have := h.asc
    refine List.pairwise_map.2 ((List.pairwise_map.1 this).imp fun {x y} hxy => ?_)
    rw [lexBefore_iff (s := [y 0]) (t := [x 0]) rfl]
    simp only [BitVec.ult, decide_eq_false_iff_not] at hxy
    simp [nums, List.cons_lt_cons_iff]; omega

/-- The two-character strings "ba" and "aa". -/
def strBA : FStr 8 2 := fun k => if k = 0 then 0x62 else 0x61
def strAA : FStr 8 2 := fun _ => 0x61

/-- 32768 times "ba", then 32768 times "aa". -/
def baaa : List (FStr 8 2) := List.replicate 32768 strBA ++ List.replicate 32768 strAA

theorem baaa_length : baaa.length = 65536 := by
  unfold baaa; rw [List.length_append, List.length_replicate, List.length_replicate]

theorem baaa_mem {x : FStr 8 2} (h : x ∈ baaa) : x 1 = 0x61#8 ∧ (0x61#8).toNat ≤ (x 0).toNat := by
  unfold baaa at h
  rcases List.mem_append.1 h with h | h <;> rw [(List.mem_replicate.1 h).2] <;> decide

theorem baaa_part {j : Nat} (hj : j < 8) : part 65536 baaa 0 j = List.replicate 8192 (if j < 4 then strBA else strAA) := by
  unfold part seg
  have h : nodeLo 65536 0 j = 8192 * j ∧ nodeHi 65536 0 j = 8192 * (j + 1) := by
    interval_cases j <;> decide
  rw [h.1, h.2]
  apply List.ext_getElem
  · rw [List.length_take, List.length_drop, baaa_length, List.length_replicate]; omega
  · intro i h1 h2
    rw [List.length_replicate] at h2
    rw [List.getElem_take, List.getElem_drop, List.getElem_replicate]
    unfold baaa
    rw [List.getElem_append]
    simp only [List.length_replicate, List.getElem_replicate]
    by_cases h4 : j < 4
    · rw [if_pos h4, dif_pos (by omega)]
    · rw [if_neg h4, dif_neg (by omega)]

/-- Nothing moves when this array is sorted. -/
theorem baaa_contract (f : Nat → List (FStr 8 2)) (hf : ∀ m, (f m).length = m) :
    NContract (leafSortStr fstrLt f) parMergeChars 65536 baaa
      (fun k j S => S = part 65536 baaa k j ∧ ∀ x ∈ S, x ∈ baaa) := by
  have hmem : ∀ k j, ∀ x ∈ part 65536 baaa k j, x ∈ baaa := fun k j x hx =>
    List.mem_of_mem_drop (List.mem_of_mem_take hx)
  have hpl : ∀ {k j}, Valid k j → (part 65536 baaa k j).length = nodeHi 65536 k j - nodeLo 65536 k j := fun hv =>
    seg_length (by rw [baaa_length]; exact nodeHi_le hv)
  refine ⟨fun hv h => by rw [h.1]; exact hpl hv, ?_, ?_⟩
  · intro j A B w hj hA hw
    have hv : Valid 0 j := ⟨by omega, by simpa using hj⟩
    obtain ⟨S', w', h1, h2, h3⟩ := leafSortStr_ok (computes_fstr 8 2) (lexKey_swo _) f hf A (part 65536 baaa 0 j) B w hj hA
      (hpl hv) (fun _ _ => trivial)
    have e : S' = part 65536 baaa 0 j := by
      refine SS.eq (lexKey_swo _) h2 (SS.refl ?_)
      rw [baaa_part hj]
      refine List.pairwise_replicate.2 (Or.inr ?_)
      exact (lexKey_swo _).irrefl _
    exact ⟨S', w', h1, ⟨e, fun x hx => hmem _ _ x (e ▸ hx)⟩, h3⟩
  · intro k j A L R B W1 W W2 pl len pw hv hL hR hA h1 h2 h3 h4 h5 h6
    have hbl := hpl hv.left
    have hbr := hpl hv.right
    have hlen : ∃ q, len = 4 * q ∧ 0 < q ∧ q < L.length := by
      rw [hL.1] at h2 h4 ⊢
      rw [hR.1] at h2
      rw [hbl] at h2 h4 ⊢
      rw [hbr] at h2
      have hk := hv.1
      have hj := hv.2
      have : k < 3 := by omega
      interval_cases k <;> simp at hj <;> (first | subst hj | interval_cases j) <;> simp [nodeHi, nodeLo, endPos] at h2 h4 ⊢ <;>
        exact ⟨len / 4, by omega, by omega, by omega⟩
    obtain ⟨q, hq1, hq2, hq3⟩ := hlen
    have hget : ∀ i (h : i < L.length), (A ++ L ++ R ++ B)[pl + i]? = some L[i] := by
      intro i h
      rw [List.append_assoc, List.append_assoc, List.getElem?_append_right (by omega), List.getElem?_append_left (by omega)]
      rw [h1, Nat.add_sub_cancel_left, List.getElem?_eq_getElem h]
    have hm := fun i (h : i < L.length) => baaa_mem (hL.2 _ (List.getElem_mem h))
    have hrun := parMergeChars_skip (A ++ L ++ R ++ B) (W1 ++ W ++ W2) (L[q]) (L[q - 1]) pl q len pw hq1 hq2 (hget q hq3)
      (by rw [show pl + q - 1 = pl + (q - 1) by omega]; exact hget (q - 1) (by omega))
      (by rw [(hm (q - 1) (by omega)).1]; exact (hm q hq3).2)
    refine ⟨L ++ R, W, ⟨?_, ?_⟩, rfl, by rw [hrun]; simp⟩
    · rw [hL.1, hR.1]
      obtain ⟨m1, m2, m3, m4⟩ := node_mid (n := 65536) hv
      unfold part
      rw [← m1, ← m2, ← m3]
      have g1 := nodeLo_le (n := 65536) hv.left
      have g2 := nodeLo_le (n := 65536) hv.right
      exact (seg_split g1 (by omega)).symm
    · intro x hx
      rcases List.mem_append.1 hx with h | h
      · exact hL.2 x h
      · exact hR.2 x h

/-- C26, violated: a parallel sort of 65536 two-character strings, the first half "ba" and the second half "aa",
returns the array unsorted, whatever the schedule. -/
theorem C26_parallel_sort_violated (f : Nat → List (FStr 8 2)) (hf : ∀ m, (f m).length = m) (w : List (FStr 8 2))
    (hw : w.length = 8 * (65536 / 16 + 1)) (s : PS (FStr 8 2)) (hr : ParStrSortRun f baaa w s) (h8 : s.completed = 8) :
    ¬ Ascending LexBefore (s.a.map List.ofFn) := by
  unfold ParStrSortRun at hr
  rw [baaa_length] at hr
  have hi : Inv 65536 (fun k j S => S = part 65536 baaa k j ∧ ∀ x ∈ S, x ∈ baaa) none baaa (init baaa w) :=
    inv_init w _ baaa_length hw (fun _ => rfl)
  have h := (reach_inv (baaa_contract f hf) (by decide) baaa_length (fun _ h => by cases h) hi hr).root h8
  have e : part 65536 baaa 3 0 = baaa := by
    have := seg_all baaa
    rw [baaa_length] at this
    exact this
  rw [h.1, e]
  intro hasc
  have hp := List.pairwise_append.1 (List.pairwise_map.1 hasc)
  exact hp.2.2 strBA (List.mem_replicate.2 ⟨by decide, rfl⟩) strAA (List.mem_replicate.2 ⟨by decide, rfl⟩)
    ⟨[], 0x61, 0x62, [0x61], [0x61], by decide, by decide, by decide⟩

/-- ... and such a run exists. -/
example : ∃ f w s, ParStrSortRun f baaa w s ∧ s.completed = 8 ∧ ¬ Ascending LexBefore (s.a.map List.ofFn) := by
  have hf : ∀ m, (List.replicate m strAA).length = m := fun m => List.length_replicate
  have hw : (List.replicate (8 * (65536 / 16 + 1)) strAA).length = 8 * (65536 / 16 + 1) := by rw [List.length_replicate]
  obtain ⟨s, h1, _, h3⟩ := exists_complete (baaa_contract (fun m => List.replicate m strAA) hf) (by decide) baaa_length
    (fun _ h => by cases h) (inv_init (src := none) (List.replicate (8 * (65536 / 16 + 1)) strAA) _ baaa_length hw (fun _ => rfl)) .start
  have h1' : ParStrSortRun (fun m => List.replicate m strAA) baaa (List.replicate (8 * (65536 / 16 + 1)) strAA) s := by
    unfold ParStrSortRun; rw [baaa_length]; exact h1
  exact ⟨_, _, s, h1', h3, C26_parallel_sort_violated _ hf _ hw s h1' h3⟩

/-- A small case: three strings of two characters. -/
example : ∃ a', sortStr (strLt 2) [[2, 1], [1, 9], [1, 3#8]] [[0, 0]] = some a' ∧
    IsSortOf LexBefore a' [[2, 1], [1, 9], [1, 3#8]] := C26_sort 2 _ _ (by decide) rfl

/-- Cases: three two-character strings. -/
example : ∃ ix, argsortStr (strLt 2) [[2, 1], [1, 9], [1, 3#8]] (List.range 3) [0] = some ix ∧
    IsStableArgsort LexBefore (strOf [[2, 1], [1, 9], [1, 3#8]]) 3 ix := C26_argsort 2 _ _ (by decide) rfl

example : ∃ a' ix, sortStr (strLt 2) [[2, 1], [1, 9], [1, 3#8]] [[0, 0]] = some a' ∧
    argsortStr (strLt 2) [[2, 1], [1, 9], [1, 3#8]] (List.range 3) [0] = some ix ∧ ix.map (strOf [[2, 1], [1, 9], [1, 3#8]]) = a' := by
  obtain ⟨a', h1, _⟩ := C26_sort 2 [[2, 1], [1, 9], [1, 3#8]] [[0, 0]] (by decide) rfl
  obtain ⟨ix, h2, _⟩ := C26_argsort 2 [[2, 1], [1, 9], [1, 3#8]] [0] (by decide) rfl
  exact ⟨a', ix, h1, h2, C26_sort_argsort_agree 2 _ _ _ a' ix (by decide) h1 rfl h2 rfl⟩

example : ∃ r ix, TotalOn 2 r ∧ argsortStr (voidLt 2) [[2, 1], [1, 9], [1, 3#8]] (List.range 3) [0] = some ix ∧
    IsStableArgsort r (strOf [[2, 1], [1, 9], [1, 3#8]]) 3 ix := by
  obtain ⟨r, h1, h2⟩ := C26_void_argsort_partial 2
  obtain ⟨ix, h3, h4⟩ := h2 [[2, 1], [1, 9], [1, 3#8]] [0] (by decide) rfl
  exact ⟨r, ix, h1, h3, h4⟩

/-- Case: any 65536 or more one-character strings, from the start. -/
example {u : Nat} (a : List (FStr u 1)) (hn : 65536 ≤ a.length) :=
  (C26_parallel_sort_partial (fun m => List.replicate m fun _ => 0#u) (fun m => List.length_replicate) a
    (List.replicate (8 * (a.length / 16 + 1)) fun _ => 0#u) List.length_replicate hn _ .start).1

end Pnumpy.Props
