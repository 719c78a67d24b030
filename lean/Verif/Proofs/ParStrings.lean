import Verif.Proofs.Strings
/-
The parallel string sorts.
-/
namespace Pnumpy.Str
open Pnumpy.Sort Pnumpy.ParSort Spec Pnumpy.Props

/-- What ParMergeMergeString does. -/
theorem parMergeStr_run {cmp : Nat → Nat → Option Bool} {lt : Nat → Nat → Bool} {P : Nat → Prop} (hc : Computes cmp lt P)
    (A L R B W1 W W2 : List Nat) (hPL : ∀ x ∈ L, P x) (hPR : ∀ x ∈ R, P x) {pl len pw x : Nat} {R0 : List Nat}
    (hR : R = x :: R0) (hx : x ≠ 0) (hpx : P (x - 1))
    (h1 : pl = A.length) (h2 : len = L.length + R.length) (h3 : pw = W1.length)
    (hhalf : L.length = len / 2) (hW : L.length ≤ W.length) :
    ∃ W', W'.length = W.length ∧
      parMergeStr cmp (A ++ L ++ R ++ B) (W1 ++ W ++ W2) pl len pw =
        some (A ++ (if lt x (x - 1) then mergeL lt L R else L ++ R) ++ B, W1 ++ W' ++ W2) := by
  subst h1 h3
  have hPx : P x := hPR x (by rw [hR]; simp)
  have hcmp := hc x (x - 1) hPx hpx
  have hgx : (A ++ L ++ R ++ B)[A.length + len / 2]? = some x := by
    rw [hR]
    have e : A ++ L ++ x :: R0 ++ B = (A ++ L) ++ x :: (R0 ++ B) := by simp
    rw [e]; exact get_mid (by simp; omega)
  cases hb : lt x (x - 1)
  · refine ⟨W, rfl, ?_⟩
    unfold parMergeStr
    simp only [Option.bind_eq_bind, Option.bind_some, hgx, if_neg hx, hcmp, hb, Bool.false_eq_true, if_false]
    simp
  · obtain ⟨G, W', rfl, hG, hW'⟩ := split_at W (len / 2) (by omega)
    have hrun := mergeBack_ok (tr := cmp) (t := lt) (A := A) (G := L) (R := R)
      (B := B) (W1 := W1) (L := L) (W2 := W' ++ W2) (hG := rfl)
      (ht := fun r hr l hl => hc r l (hPR r hr) (hPL l hl)) (pl := A.length) (pm := A.length + len / 2) (pr := A.length + len)
      (pw := W1.length) (pwEnd := W1.length + (A.length + len / 2 - A.length))
      rfl (by omega) rfl (by omega) (by omega)
    refine ⟨L ++ W', by simp; omega, ?_⟩
    have hblit : blit (A ++ L ++ R ++ B) A.length (W1 ++ (G ++ W') ++ W2) W1.length
        (A.length + len / 2 - A.length) = some (W1 ++ L ++ (W' ++ W2)) := by
      have := blit_eq (A1 := A) (S := L) (A2 := R ++ B) (B1 := W1) (G := G) (B2 := W' ++ W2) (s := A.length)
        (d := W1.length) (n := A.length + len / 2 - A.length) rfl rfl (by omega) (by omega)
      rw [← this]; congr 1 <;> simp
    unfold parMergeStr
    simp only [Option.bind_eq_bind, Option.bind_some, hgx, if_neg hx, hcmp, hb, if_true, hblit]
    simp only [Option.bind_eq_bind] at hrun
    obtain ⟨m, hm1, hm2⟩ := Option.bind_eq_some_iff.1 hrun
    rw [hm1, Option.bind_some, hm2, Option.bind_some]
    simp

/-- A segment of the identity index array. -/
theorem part_range (n k j : Nat) (hv : Valid k j) :
    part n (List.range n) k j = List.range' (nodeLo n k j) (nodeHi n k j - nodeLo n k j) := by
  have h := nodeHi_le (n := n) hv
  unfold part seg
  apply List.ext_getElem
  · simp; omega
  · intro i h1 h2
    simp at h1 h2 ⊢

/-- First step of the parallel string argsort. -/
theorem leafArgStr_ok {α : Type} [Inhabited α] {cmp : α → α → Option Bool} {lt : α → α → Bool} {P : α → Prop}
    (hc : Computes cmp lt P) (hs : SWO lt) (v : List α) (hP : ∀ x ∈ v, P x) {n : Nat} (hn : n = v.length) {j : Nat}
    (A B w : List Nat) (hj : j < 8) (hA : A.length = nodeLo n 0 j) (hw : w.length = 8 * chunk n) :
    ∃ S' w', leafArgStr (byIndex cmp v) (A ++ part n (List.range n) 0 j ++ B) w (nodeLo n 0 j) (nodeHi n 0 j - nodeLo n 0 j)
        (nodeWs n 0 j) = some (A ++ S' ++ B, w') ∧
      SS (keyLt lt v) S' (part n (List.range n) 0 j) ∧ Within (nodeWs n 0 j) (nodeWs n 0 (j + 1)) w' w := by
  have hv : Valid 0 j := ⟨by omega, by simpa using hj⟩
  have hhi := nodeHi_le (n := n) hv
  have hws := ws_enough (n := n) hv
  have hwm := nodeWs_mono n 0 j
  obtain ⟨W1, W, W2, rfl, hW1, hW⟩ := leaf_ws hj w hw
  have hlen : (part n (List.range n) 0 j).length = nodeHi n 0 j - nodeLo n 0 j := by rw [part_range n 0 j hv]; simp
  obtain ⟨S', W', h1, h2, h3⟩ := str_all (computes_byIndex hc v hP) (keyLt_swo hs v) false (nodeHi n 0 j - nodeLo n 0 j)
    A (part n (List.range n) 0 j) B W1 W W2 hlen (by omega) (by
      intro i hi
      rw [part_range n 0 j hv, List.mem_range'_1] at hi
      omega)
  refine ⟨S', W1 ++ W' ++ W2, ?_, h1, within_mid hW1.symm (by omega) h2⟩
  rw [hA, hW1] at h3
  exact h3

/-- The parallel string argsort rearranges the indices inside every node. -/
theorem strPerm_contract {α : Type} [Inhabited α] {cmp : α → α → Option Bool} {lt : α → α → Bool} {P : α → Prop}
    (hc : Computes cmp lt P) (hs : SWO lt) (v : List α) (hP : ∀ x ∈ v, P x) (hn : 16 ≤ v.length) :
    NContract (leafArgStr (byIndex cmp v)) (parMergeStr (byIndex cmp v)) v.length (List.range v.length)
      (onNode v.length (List.range v.length) fun S' S => S'.Perm S) where
  len hv h := by rw [h.length_eq, part_range _ _ _ hv]; simp
  leaf_ok {j} A B w hj hA hw := by
    obtain ⟨S', w', h1, h2, h3⟩ := leafArgStr_ok hc hs v hP rfl A B w hj hA hw
    exact ⟨S', w', h1, h2.perm, h3⟩
  merge_ok {k j} A L R B W1 W W2 pl len pw hv hL hR hA h1 h2 h3 h4 h5 h6 := by
    have hL' : L.Perm (part v.length (List.range v.length) k (2 * j)) := hL
    have hR' : R.Perm (part v.length (List.range v.length) k (2 * j + 1)) := hR
    rw [part_range _ _ _ hv.left] at hL'
    rw [part_range _ _ _ hv.right] at hR'
    have hL0 := nodeHi_le (n := v.length) hv.left
    have hR0 := nodeHi_le (n := v.length) hv.right
    have hLlen := hL'.length_eq
    have hRlen := hR'.length_eq
    simp only [List.length_range'] at hLlen hRlen
    have hmL : ∀ x ∈ L, x < v.length := fun x hx => by
      have := hL'.mem_iff.1 hx; rw [List.mem_range'_1] at this; omega
    have hmR : ∀ x ∈ R, nodeLo v.length k (2 * j + 1) ≤ x ∧ x < v.length := fun x hx => by
      have := hR'.mem_iff.1 hx; rw [List.mem_range'_1] at this; omega
    obtain ⟨x, R0, hRx⟩ := exists_head R (by omega)
    have hx := hmR x (by rw [hRx]; simp)
    have hbig := node_big hn hv.left
    obtain ⟨m1, m2, m3, m4⟩ := node_mid (n := v.length) hv
    obtain ⟨W', e1, e2⟩ := parMergeStr_run (computes_byIndex hc v hP) A L R B W1 W W2 hmL (fun x hx => (hmR x hx).2) hRx
      (by omega) (by show x - 1 < v.length; omega) h1 h2 h3 h4 h6
    refine ⟨_, W', ?_, e1, e2⟩
    have e : part v.length (List.range v.length) (k + 1) j =
        part v.length (List.range v.length) k (2 * j) ++ part v.length (List.range v.length) k (2 * j + 1) := by
      unfold part
      rw [← m1, ← m2, ← m3]
      have := nodeLo_le (n := v.length) hv.right
      exact seg_split (by omega) (by omega)
    show List.Perm _ (part v.length (List.range v.length) (k + 1) j)
    rw [e]
    split
    · exact (mergeL_perm _ L R).trans (hL.append hR)
    · exact hL.append hR

/-! ### The wrong check in ParMergeMergeString -/

theorem range'_split {lo mid hi : Nat} (h1 : lo ≤ mid) (h2 : mid ≤ hi) :
    List.range' lo (mid - lo) ++ List.range' mid (hi - mid) = List.range' lo (hi - lo) := by
  have e : mid = lo + 1 * (mid - lo) := by omega
  have := List.range'_append (s := lo) (m := mid - lo) (n := hi - mid) (step := 1)
  rw [← e] at this
  rw [this]; congr 1; omega

/-- Node contents for the keys `b, a, a, a, ...`: only the first leaf is rearranged. -/
def stuck (n k j : Nat) : List Nat :=
  if j = 0 then (List.range' 1 (nodeHi n 0 0 - 1) ++ [0]) ++ List.range' (nodeHi n 0 0) (nodeHi n k 0 - nodeHi n 0 0)
  else List.range' (nodeLo n k j) (nodeHi n k j - nodeLo n k j)

section
variable {α : Type} [Inhabited α] {lt : α → α → Bool} {b a : α} {m : Nat}

theorem stuck_key (hs : SWO lt) (hab : lt a b = true) {i j : Nat} (hi : i < m + 1) (hj : j < m + 1) :
    keyLt lt (b :: List.replicate m a) i j = decide (i ≠ 0 ∧ j = 0) := by
  have h1 := hs.irrefl a
  have h2 := hs.irrefl b
  have h3 := hs.asymm a b hab
  have hr : ∀ q, q < m → (List.replicate m a)[q]? = some a := fun q hq => by
    rw [List.getElem?_replicate, if_pos hq]
  unfold keyLt
  rcases i with _ | i <;> rcases j with _ | j
  · simp [h2]
  · simp [hr j (by omega), h3]
  · simp [hr i (by omega), hab]
  · simp [hr i (by omega), hr j (by omega), h1]

theorem stuck_leaf (hs : SWO lt) (hab : lt a b = true) {e : Nat} (he : 0 < e) (hm : e ≤ m + 1) :
    SS (keyLt lt (b :: List.replicate m a)) (List.range' 1 (e - 1) ++ [0]) (List.range' 0 e) := by
  have hk := fun {i j} => stuck_key (lt := lt) (b := b) (a := a) (m := m) hs hab (i := i) (j := j)
  obtain ⟨e, rfl⟩ : ∃ e', e = e' + 1 := ⟨e - 1, by omega⟩
  have e0 : List.range' 0 (e + 1) = 0 :: List.range' 1 e := by rw [List.range'_succ]
  have hmem : ∀ i ∈ List.range' 1 e, 1 ≤ i ∧ i < m + 1 := fun i hi => by rw [List.mem_range'_1] at hi; omega
  rw [e0]
  simp only [Nat.add_sub_cancel]
  refine ⟨List.perm_append_singleton _ _, ?_, fun c => ?_⟩
  · refine List.pairwise_append.2 ⟨?_, by simp, ?_⟩
    · apply List.Pairwise.imp_of_mem (R := fun _ _ => True) _ (List.pairwise_of_forall fun _ _ => trivial)
      · intro x y hx hy _
        rw [hk (hmem y hy).2 (hmem x hx).2]
        have := (hmem x hx).1
        simp; omega
    · intro x hx y hy
      have hy0 : y = 0 := by simpa using hy
      subst hy0
      rw [hk (by omega) (hmem x hx).2]; simp
  · rw [List.filter_append, List.filter_cons]
    have h1 : ∀ i ∈ List.range' 1 e, keyLt lt (b :: List.replicate m a) i 0 = true := fun i hi => by
      rw [hk (hmem i hi).2 (by omega)]; have := (hmem i hi).1; simp; omega
    by_cases hc0 : eqv (keyLt lt (b :: List.replicate m a)) c 0 = true
    · have : (List.range' 1 e).filter (eqv (keyLt lt (b :: List.replicate m a)) c) = [] := by
        rw [List.filter_eq_nil_iff]
        intro i hi h
        unfold eqv at hc0 h
        simp only [Bool.and_eq_true, Bool.not_eq_true'] at hc0 h
        rcases (keyLt_swo hs (b :: List.replicate m a)).negTrans i c 0 (h1 i hi) with h2 | h2
        · rw [h.1] at h2; cases h2
        · rw [hc0.2] at h2; cases h2
      simp only [this, List.filter_cons, hc0, if_true, List.filter_nil, List.nil_append]
    · simp [hc0]

theorem stuck_contract {cmp : α → α → Option Bool} {P : α → Prop} (hc : Computes cmp lt P) (hs : SWO lt) (hPa : P a) (hPb : P b)
    (hab : lt a b = true) (hm : 16 ≤ m) :
    NContract (leafArgStr (byIndex cmp (b :: List.replicate m a))) (parMergeStr (byIndex cmp (b :: List.replicate m a))) (m + 1)
      (List.range (m + 1)) (fun k j S => S = stuck (m + 1) k j) := by
  have hP : ∀ x ∈ b :: List.replicate m a, P x := by
    intro x hx
    rcases List.mem_cons.1 hx with rfl | hx
    · exact hPb
    · rw [(List.mem_replicate.1 hx).2]; exact hPa
  have hlen : (b :: List.replicate m a).length = m + 1 := by simp
  have hb0 : ∀ {k j}, Valid k j → 2 ≤ nodeHi (m + 1) k j - nodeLo (m + 1) k j := fun hv => node_big (by omega) hv
  have hv00 : Valid 0 0 := ⟨by omega, by decide⟩
  have hb00 := hb0 hv00
  have hm00 := nodeHi_le (n := m + 1) hv00
  have hmono : ∀ {k j}, Valid k j → j ≠ 0 → nodeHi (m + 1) 0 0 ≤ nodeLo (m + 1) k j := by
    intro k j hv hj
    have h1 := hv.idx
    refine endPos_mono (m + 1) ?_ ?_
    · have : 1 * 1 ≤ j * 2 ^ k := Nat.mul_le_mul (by omega) Nat.one_le_two_pow
      simpa using this
    · rw [Nat.add_mul] at h1; omega
  have hmono0 : ∀ {k}, Valid k 0 → nodeHi (m + 1) 0 0 ≤ nodeHi (m + 1) k 0 := by
    intro k hv
    refine endPos_mono (m + 1) ?_ hv.idx
    simpa using Nat.one_le_two_pow
  have hlo0 : ∀ k, nodeLo (m + 1) k 0 = 0 := fun k => by simp [nodeLo, endPos]
  have hl : ∀ {k j}, Valid k j → (stuck (m + 1) k j).length = nodeHi (m + 1) k j - nodeLo (m + 1) k j := by
    intro k j hv
    unfold stuck
    split
    · rename_i h; subst h
      have := hmono0 hv
      rw [hlo0]
      simp; omega
    · simp
  have hmemS : ∀ {k j}, Valid k j → ∀ x ∈ stuck (m + 1) k j, x < m + 1 := by
    intro k j hv x hx
    have h1 := nodeHi_le (n := m + 1) hv
    unfold stuck at hx
    split at hx
    · rename_i h; subst h
      have h0 := hmono0 hv
      simp only [List.mem_append, List.mem_range'_1, List.mem_singleton] at hx
      omega
    · rw [List.mem_range'_1] at hx; omega
  refine ⟨fun {k j S} hv h => h ▸ hl hv, ?_, ?_⟩
  · intro j A B w hj hA hw
    have hv : Valid 0 j := ⟨by omega, by simpa using hj⟩
    obtain ⟨S', w', h1, h2, h3⟩ := leafArgStr_ok hc hs (b :: List.replicate m a) hP hlen.symm A B w hj hA hw
    refine ⟨S', w', h1, ?_, h3⟩
    refine SS.eq (keyLt_swo hs _) h2 ?_
    rw [part_range _ _ _ hv]
    have h4 := nodeHi_le (n := m + 1) hv
    unfold stuck
    split
    · rename_i h; subst h
      rw [hlo0, Nat.sub_self, List.range'_zero, List.append_nil, Nat.sub_zero]
      exact stuck_leaf hs hab (by omega) h4
    · rename_i h
      have h5 := hmono hv h
      refine SS.refl ?_
      apply List.Pairwise.imp_of_mem (R := fun _ _ => True) _ (List.pairwise_of_forall fun _ _ => trivial)
      · intro x y hx hy _
        rw [List.mem_range'_1] at hx hy
        rw [stuck_key hs hab (by omega) (by omega)]
        simp; omega
  · intro k j A L R B W1 W W2 pl len pw hv hL hR hA h1 h2 h3 h4 h5 h6
    have hbr := hb0 hv.right
    have hne : 2 * j + 1 ≠ 0 := by omega
    have hge := hmono hv.right hne
    have hRx : R = nodeLo (m + 1) k (2 * j + 1) ::
        List.range' (nodeLo (m + 1) k (2 * j + 1) + 1) (nodeHi (m + 1) k (2 * j + 1) - nodeLo (m + 1) k (2 * j + 1) - 1) := by
      rw [hR, stuck, if_neg hne]
      obtain ⟨q, hq⟩ : ∃ q, nodeHi (m + 1) k (2 * j + 1) - nodeLo (m + 1) k (2 * j + 1) = q + 1 := ⟨_, (Nat.succ_pred (by omega)).symm⟩
      rw [hq, List.range'_succ]; simp
    have hx := hmemS hv.right (nodeLo (m + 1) k (2 * j + 1)) (by rw [← hR, hRx]; simp)
    obtain ⟨W', e1, e2⟩ := parMergeStr_run (computes_byIndex hc _ hP) A L R B W1 W W2
      (fun x hx => by rw [hlen]; exact hmemS hv.left x (hL ▸ hx))
      (fun x hx => by rw [hlen]; exact hmemS hv.right x (hR ▸ hx)) hRx (by omega) (by rw [hlen]; omega) h1 h2 h3 h4 h6
    refine ⟨_, W', ?_, e1, e2⟩
    rw [stuck_key hs hab hx (by omega), if_neg (by simp; omega), hL, hR]
    obtain ⟨m1, m2, m3, m4⟩ := node_mid (n := m + 1) hv
    have hlr := nodeLo_le (n := m + 1) hv.right
    unfold stuck
    rw [if_neg hne]
    by_cases hj : j = 0
    · subst hj
      have := hmono0 hv.left
      rw [if_pos rfl, if_pos rfl, List.append_assoc]
      congr 1
      rw [← m2, ← m3]
      rw [← m3] at hlr; exact range'_split (by assumption) hlr
    · rw [if_neg (by omega), if_neg hj, ← m1, ← m2, ← m3]
      exact range'_split (nodeLo_le hv.left) (by omega)
end

/-! ### Merging single characters -/

theorem toMem_length {u len : Nat} (a : List (FStr u len)) : (toMem a).length = a.length * len := by
  induction a with
  | nil => simp [toMem]
  | cons x a ih =>
    have : toMem (x :: a) = List.ofFn x ++ toMem a := rfl
    rw [this, List.length_append, ih, List.length_ofFn, List.length_cons, Nat.add_mul]; omega

theorem toMem_get {u len : Nat} (k : Fin len) : ∀ (a : List (FStr u len)) (i : Nat),
    (toMem a)[i * len + k]? = a[i]?.map (· k) := by
  intro a
  induction a with
  | nil => intro i; simp [toMem]
  | cons x a ih =>
    intro i
    have e : toMem (x :: a) = List.ofFn x ++ toMem a := rfl
    rw [e]
    cases i with
    | zero =>
      have : k.1 < len := k.2
      rw [List.getElem?_append_left (by simp)]
      simp
    | succ i =>
      rw [List.getElem?_append_right (by simp; rw [Nat.add_mul]; omega)]
      have : (i + 1) * len + k - (List.ofFn x).length = i * len + k := by simp; rw [Nat.add_mul]; omega
      rw [this, ih i]; simp

theorem ofMem_toMem {u len : Nat} (a : List (FStr u len)) : ofMem len a.length (toMem a) = a := by
  apply List.ext_getElem
  · simp [ofMem]
  · intro i h1 h2
    simp only [ofMem, List.getElem_map, List.getElem_range]
    funext k
    rw [toMem_get, List.getElem?_eq_getElem h2]; rfl

theorem computes_fstr (u len : Nat) :
    Computes (fstrLt (u := u) (len := len)) (lexKey fun c => nums (List.ofFn c)) (fun _ => True) := by
  intro s t _ _
  exact computes_str len (List.ofFn s) (List.ofFn t) (by simp) (by simp)

theorem leafSortStr_ok {α : Type} {cmp : α → α → Option Bool} {lt : α → α → Bool} {P : α → Prop} (hc : Computes cmp lt P)
    (hs : SWO lt) (f : Nat → List α) (hf : ∀ m, (f m).length = m) {n j : Nat}
    (A S B w : List α) (hj : j < 8) (hA : A.length = nodeLo n 0 j) (hS : S.length = nodeHi n 0 j - nodeLo n 0 j)
    (hP : ∀ x ∈ S, P x) :
    ∃ S' w', leafSortStr cmp f (A ++ S ++ B) w (nodeLo n 0 j) (nodeHi n 0 j - nodeLo n 0 j) (nodeWs n 0 j) =
        some (A ++ S' ++ B, w') ∧
      SS lt S' S ∧ Within (nodeWs n 0 j) (nodeWs n 0 (j + 1)) w' w := by
  obtain ⟨S', W', h1, h2, h3⟩ := str_all hc hs true (nodeHi n 0 j - nodeLo n 0 j) A S B []
    (f ((nodeHi n 0 j - nodeLo n 0 j) / 2)) [] hS (by rw [hf]) hP
  refine ⟨S', w, ?_, h1, Within.refl _ _ _⟩
  simp only [List.nil_append, List.append_nil, List.length_nil] at h3
  unfold leafSortStr
  rw [← hA, ← hS] at *
  rw [h3]; rfl

/-- The check before the merge looks at two neighbouring characters in the middle of the left half: if these are in
order, nothing is merged. -/
theorem parMergeChars_skip (a w : List (FStr 8 2)) (x y : FStr 8 2) (pl q len pw : Nat) (hlen : len = 4 * q) (hq : 0 < q)
    (hx : a[pl + q]? = some x) (hy : a[pl + q - 1]? = some y) (hxy : (y 1).toNat ≤ (x 0).toNat) :
    parMergeChars a w pl len pw = some (a, w) := by
  have e1 : pl * 2 + len / 2 = (pl + q) * 2 + (0 : Fin 2) := by simp; omega
  have e2 : pl * 2 + len / 2 - 1 = (pl + q - 1) * 2 + (1 : Fin 2) := by simp; omega
  have g1 : (toMem a)[pl * 2 + len / 2]? = some (x 0) := by rw [e1, toMem_get, hx]; rfl
  have g2 : (toMem a)[pl * 2 + len / 2 - 1]? = some (y 1) := by rw [e2, toMem_get, hy]; rfl
  have hb : BitVec.ult (x 0) (y 1) = false := by simp [BitVec.ult]; omega
  unfold parMergeChars parMerge
  simp only [Option.bind_eq_bind, g1, g2, Option.bind_some, direct, hb]
  rw [if_neg (by omega)]
  simp [ofMem_toMem]

/-! ### One-character strings -/

theorem toMem_one {u : Nat} (a : List (FStr u 1)) : toMem a = a.map (· 0) := by
  induction a with
  | nil => rfl
  | cons x a ih =>
    have : toMem (x :: a) = List.ofFn x ++ toMem a := rfl
    rw [this, ih]; simp

theorem ofMem_one {u n : Nat} (m : List (BitVec u)) (h : m.length = n) : (ofMem 1 n m).map (· 0) = m := by
  apply List.ext_getElem
  · simp [ofMem, h]
  · intro i h1 h2
    simp [ofMem, List.getElem?_eq_getElem h2]

theorem one_inj {u : Nat} : Function.Injective (fun x : FStr u 1 => x 0) := by
  intro x y h
  funext k
  obtain rfl : k = 0 := Subsingleton.elim _ _
  exact h

theorem ofMem_one_map {u : Nat} (a : List (FStr u 1)) : ofMem 1 a.length (a.map (· 0)) = a := by
  rw [← toMem_one]; exact ofMem_toMem a

theorem ult_swo (u : Nat) : SWO (BitVec.ult (n := u)) := by
  refine ⟨fun x y h => ?_, fun x y z h => ?_⟩
  · simp [BitVec.ult] at h ⊢; omega
  · simp [BitVec.ult] at h ⊢; omega

/-- A sort of one-character strings is a sort of the characters. -/
theorem SS_map {α β : Type} {lt : α → α → Bool} {lt' : β → β → Bool} {g : α → β} (hg : ∀ x y, lt' (g x) (g y) = lt x y)
    (hs : Function.Surjective g) {S' S : List α} (h : SS lt S' S) : SS lt' (S'.map g) (S.map g) := by
  refine ⟨h.perm.map g, ?_, fun c => ?_⟩
  · refine List.pairwise_map.2 (h.asc.imp fun {x y} hxy => ?_)
    rw [hg]; exact hxy
  · obtain ⟨c, rfl⟩ := hs c
    rw [List.filter_map, List.filter_map]
    have : (eqv lt' (g c)) ∘ g = eqv lt c := by
      funext x; simp [eqv, hg]
    rw [this, h.stable c]

theorem one_contract (u : Nat) (f : Nat → List (FStr u 1)) (hf : ∀ m, (f m).length = m) (n : Nat) :
    Contract (leafSortStr fstrLt f) parMergeChars n (fun S' S => SS BitVec.ult (S'.map (· 0)) (S.map (· 0))) (fun _ => True) where
  perm h := (List.map_perm_map_iff one_inj).1 h.perm
  leaf_ok A S B w hj hA hS hw hP := by
    obtain ⟨S', w', h1, h2, h3⟩ := leafSortStr_ok (computes_fstr u 1) (lexKey_swo _) f hf A S B w hj hA hS hP
    refine ⟨S', w', h1, SS_map ?_ ?_ h2, h3⟩
    · intro x y
      simp [lexKey, nums, BitVec.ult, List.cons_lt_cons_iff]
    · intro c; exact ⟨fun _ => c, rfl⟩
  merge_ok A L R B W1 W W2 SL SR pl len pw hL hR hPL hPR h1 h2 h3 h4 h5 h6 := by
    obtain ⟨S', W', e1, e2, e3⟩ := parMerge_ok (cmp := direct BitVec.ult) (computes_direct BitVec.ult) (ult_swo u) (A.map (· 0))
      (L.map (· 0)) (R.map (· 0)) (B.map (· 0)) (W1.map (· 0)) (W.map (· 0)) (W2.map (· 0)) _ _ hL hR (fun _ _ => trivial)
      (fun _ _ => trivial) (pl := pl) (len := len) (pw := pw) (by simpa using h1) (by simpa using h2) (by simpa using h3)
      (by simpa using h4) h5 (by simpa using h6)
    have hperm := e1.perm.length_eq
    have hLl := hL.perm.length_eq
    have hRl := hR.perm.length_eq
    simp only [List.length_append, List.length_map] at hperm hLl hRl e2
    refine ⟨ofMem 1 S'.length S', ofMem 1 W'.length W', ?_, ?_, ?_⟩
    · rw [ofMem_one S' rfl, List.map_append]; exact e1
    · have : (ofMem 1 W'.length W').length = W'.length := by simp [ofMem]
      omega
    · unfold parMergeChars
      rw [toMem_one, toMem_one, Nat.mul_one, Nat.mul_one]
      simp only [List.map_append]
      rw [e3]
      simp only [Option.bind_eq_bind, Option.bind_some, Option.some.injEq, Prod.mk.injEq]
      constructor
      · refine List.map_injective_iff.2 one_inj ?_
        rw [ofMem_one]
        · simp only [List.map_append]; rw [ofMem_one S' rfl]
        · simp; omega
      · refine List.map_injective_iff.2 one_inj ?_
        rw [ofMem_one]
        · simp only [List.map_append]; rw [ofMem_one W' rfl]
        · simp; omega

end Pnumpy.Str
