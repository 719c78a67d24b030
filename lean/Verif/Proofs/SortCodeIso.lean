import Verif.Proofs.SortCodeNode
/-
The code of each node computes a function of the node's own cells alone; these functions meet the contracts of the parallel sorts.
-/
namespace Pnumpy.SortCode
open Pnumpy.Sort Pnumpy.ParSort Pnumpy.TsoSort Pnumpy.Props

section
variable {V : Type}

/-- What the code of a node computes when executed on its segment and its workspace. -/
def isoFn (c : Nat → Code V Unit) : LeafFn V := fun a w start len pw =>
  (runL (c len) (seg a start (start + len)) (seg w pw (pw + len / 2))).map fun r => (splice a start r.2.1, splice w pw r.2.2)

/-- The same with a workspace of its own. -/
def isoOwn (c : Nat → Code V Unit) (f : Nat → List V) : LeafFn V := fun a w start len _ =>
  (runL (c len) (seg a start (start + len)) (f (len / 2))).map fun r => (splice a start r.2.1, w)

theorem splice_mid {A S S' B : List V} (h : S'.length = S.length) : splice (A ++ S ++ B) A.length S' = A ++ S' ++ B := by
  unfold splice
  rw [h, List.take_append_of_le_length (by simp), List.take_left, ← List.length_append, List.drop_left]

theorem seg_splice {a S : List V} {lo hi : Nat} (h : S.length = hi - lo) (h1 : lo ≤ hi) (h2 : hi ≤ a.length) : seg (splice a lo S) lo hi = S := by
  unfold splice
  exact seg_mid (by simp; omega) (by simp; omega)

theorem splice_splice {a S T : List V} {lo : Nat} (h1 : lo + S.length ≤ a.length) (h : T.length = S.length) : splice (splice a lo S) lo T = splice a lo T := by
  have hA : (a.take lo).length = lo := by rw [List.length_take]; omega
  have := splice_mid (A := a.take lo) (S := S) (S' := T) (B := a.drop (lo + S.length)) h
  rw [hA] at this
  unfold splice at *
  rw [this, h]

theorem splice_get {a S : List V} {lo i : Nat} (h1 : lo ≤ a.length) (h2 : lo ≤ i) (h3 : i < lo + S.length) : (splice a lo S)[i]? = S[i - lo]? := by
  unfold splice
  rw [List.append_assoc, List.getElem?_append_right (by simp; omega), List.getElem?_append_left (by simp; omega)]
  congr 1
  simp; omega

theorem snap_get {n : Nat} {k j : Nat} {m : Loc → V} {i : Nat} {x : V}
    (h : ((List.range' (nodeLo n k j) (nodeHi n k j - nodeLo n k j)).map fun i => m (.arr i))[i]? = some x) : m (.arr (nodeLo n k j + i)) = x := by
  rw [List.getElem?_map] at h
  obtain ⟨y, hy, rfl⟩ := Option.map_eq_some_iff.1 h
  obtain ⟨h1, rfl⟩ := List.getElem?_eq_some_iff.1 hy
  simp

theorem snap_length {n : Nat} {src : Option (List V)} (hsrc : ∀ v, src = some v → v.length = n) {k j : Nat} (hv : Valid k j) (m : Loc → V) :
    (snapOf n src k j m).length = nodeHi n k j - nodeLo n k j := by
  unfold snapOf
  split
  · rename_i v hv'
    split at hv'
    · exact seg_length (by rw [hsrc v hv']; exact nodeHi_le hv)
    · cases hv'
  · simp

/-- Code on shared workspace is code for what it computes. -/
theorem node_shared {n : Nat} {c : Code V Unit} {k j : Nat} (hv : Valid k j) {a w : List V} {m : Loc → V} (ha : a.length = n) (hw : w.length = 8 * chunk n)
    (hws : ∀ i, nodeWs n k j ≤ i → i < nodeWs n k (j + 1) → w[i]? = some (m (.ws i))) {S : List V}
    (hS : S.length = nodeHi n k j - nodeLo n k j) (hm : ∀ i x, S[i]? = some x → m (.arr (nodeLo n k j + i)) = x) {r : Unit × List V × List V}
    (hr : runL c S (seg w (nodeWs n k j) (nodeWs n k j + (nodeHi n k j - nodeLo n k j) / 2)) = some r) :
    (∀ l ∈ seqAcc (c.prog (nodeLo n k j) (nodeWs n k j)) m, Own n k j l) ∧
    ∀ i, nodeLo n k j ≤ i → i < nodeHi n k j → (splice a (nodeLo n k j) r.2.1)[i]? = some (seqRun (c.prog (nodeLo n k j) (nodeWs n k j)) m (.arr i)) := by
  have hhi := nodeHi_le (n := n) hv
  have hlo := nodeLo_le (n := n) hv
  have hwe := ws_enough (n := n) hv
  have hwm := nodeWs_mono n k j
  have hwl := nodeWs_le (n := n) hv
  have hsl : (seg w (nodeWs n k j) (nodeWs n k j + (nodeHi n k j - nodeLo n k j) / 2)).length = (nodeHi n k j - nodeLo n k j) / 2 := by
    rw [seg_length (by omega)]; omega
  obtain ⟨h1, h2, h3, h4⟩ := prog_run (nodeLo n k j) (nodeWs n k j) c S _ m r hr hm (fun i x hx => by
    have hi := (List.getElem?_eq_some_iff.1 hx).1
    rw [hsl] at hi
    rw [seg_get (by omega), hws _ (by omega) (by omega)] at hx
    exact Option.some.inj hx)
  refine ⟨fun l hl => ?_, fun i hi1 hi2 => ?_⟩
  · rcases h1 l hl with ⟨i, hi, rfl⟩ | ⟨i, hi, rfl⟩
    · exact ⟨by omega, by omega⟩
    · rw [hsl] at hi
      exact ⟨by omega, by omega⟩
  · rw [splice_get (by omega) hi1 (by omega)]
    have hi : i - nodeLo n k j < r.2.1.length := by omega
    rw [List.getElem?_eq_getElem hi]
    have := h4 (i - nodeLo n k j) _ (List.getElem?_eq_getElem hi)
    rw [show nodeLo n k j + (i - nodeLo n k j) = i by omega] at this
    rw [this]

/-- Code on its own workspace. -/
theorem node_own {n : Nat} {c : Code V Unit} {k j : Nat} (hv : Valid k j) {a W : List V} {m : Loc → V} (ha : a.length = n) {S : List V}
    (hS : S.length = nodeHi n k j - nodeLo n k j) (hm : ∀ i x, S[i]? = some x → m (.arr (nodeLo n k j + i)) = x) {r : Unit × List V × List V}
    (hr : runL c S W = some r) :
    (∀ l ∈ seqAcc (c.progOwn (nodeLo n k j) W) m, Own n k j l) ∧
    ∀ i, nodeLo n k j ≤ i → i < nodeHi n k j → (splice a (nodeLo n k j) r.2.1)[i]? = some (seqRun (c.progOwn (nodeLo n k j) W) m (.arr i)) := by
  have hhi := nodeHi_le (n := n) hv
  have hlo := nodeLo_le (n := n) hv
  obtain ⟨h1, h2, h4⟩ := progOwn_run (nodeLo n k j) c S W m r hr hm
  refine ⟨fun l hl => ?_, fun i hi1 hi2 => ?_⟩
  · obtain ⟨i, hi, rfl⟩ := h1 l hl
    exact ⟨by omega, by omega⟩
  · rw [splice_get (by omega) hi1 (by omega)]
    have hi : i - nodeLo n k j < r.2.1.length := by omega
    rw [List.getElem?_eq_getElem hi]
    have := h4 (i - nodeLo n k j) _ (List.getElem?_eq_getElem hi)
    rw [show nodeLo n k j + (i - nodeLo n k j) = i by omega] at this
    rw [this]

theorem run_len (c : Code V A) : ∀ (a w : List V) (r : A × List V × List V), runL c a w = some r → r.2.1.length = a.length ∧ r.2.2.length = w.length := by
  induction c with
  | ret x => intro a w r h; cases h; exact ⟨rfl, rfl⟩
  | stuck => intro a w r h; cases h
  | load c k ih =>
    intro a w r h
    cases c with
    | arr i =>
      simp only [runL] at h
      obtain ⟨v, _, h⟩ := Option.bind_eq_some_iff.1 h
      exact ih v a w r h
    | ws i =>
      simp only [runL] at h
      obtain ⟨v, _, h⟩ := Option.bind_eq_some_iff.1 h
      exact ih v a w r h
  | store c v k ih =>
    intro a w r h
    cases c with
    | arr i =>
      simp only [runL] at h
      obtain ⟨a1, hv, h⟩ := Option.bind_eq_some_iff.1 h
      unfold put at hv
      split at hv
      · cases hv
        obtain ⟨h1, h2⟩ := ih _ _ _ h
        rw [List.length_set] at h1
        exact ⟨h1, h2⟩
      · cases hv
    | ws i =>
      simp only [runL] at h
      obtain ⟨a1, hv, h⟩ := Option.bind_eq_some_iff.1 h
      unfold put at hv
      split at hv
      · cases hv
        obtain ⟨h1, h2⟩ := ih _ _ _ h
        rw [List.length_set] at h2
        exact ⟨h1, h2⟩
      · cases hv

theorem isoFn_mid {c : Nat → Code V Unit} {A S B W1 W W2 S' W' : List V} (hW : W.length = S.length / 2) (h : runL (c S.length) S W = some ((), S', W')) :
    isoFn c (A ++ S ++ B) (W1 ++ W ++ W2) A.length S.length W1.length = some (A ++ S' ++ B, W1 ++ W' ++ W2) := by
  obtain ⟨h1, h2⟩ := run_len _ _ _ _ h
  unfold isoFn
  rw [seg_mid rfl rfl, seg_mid rfl (by omega), h]
  simp only [Option.map_some]
  rw [splice_mid h1, splice_mid h2]

theorem isoOwn_mid {c : Nat → Code V Unit} {f : Nat → List V} {A S B w S' W' : List V} (pw : Nat) (h : runL (c S.length) S (f (S.length / 2)) = some ((), S', W')) :
    isoOwn c f (A ++ S ++ B) w A.length S.length pw = some (A ++ S' ++ B, w) := by
  obtain ⟨h1, h2⟩ := run_len _ _ _ _ h
  unfold isoOwn
  rw [seg_mid rfl rfl, h]
  simp only [Option.map_some]
  rw [splice_mid h1]

end

/-! ### The code of the in-place sorts -/

theorem sortC_run {α : Type} {o : Ops α} (ho : OpsOk o) (k : Kind) (S w S' : List α) (hn : S.length < 2 ^ 63) (h : sortFn o k S 0 S.length w = some S') :
    ∃ w', runL (sortC o k S.length) S w = some ((), S', w') := by
  cases k with
  | quick => exact ⟨w, quicksortC_run (computes_direct _) ho.swo S w hn (fun _ _ => trivial) S' h⟩
  | heap => exact ⟨w, heapsortC_run S w 0 S.length S' h⟩
  | merge =>
    unfold sortFn mergesort at h
    simp only [Option.bind_eq_bind, Nat.zero_add] at h
    obtain ⟨r, h1, h2⟩ := Option.bind_eq_some_iff.1 h
    cases h2
    exact ⟨r.2, (mergesortC_run o (S.length + 1)).1 S w 0 S.length 0 r (by omega) h1⟩

theorem argsortC_run {α : Type} [Inhabited α] {o : Ops α} (ho : OpsOk o) (k : Kind) (v : List α) (S w : List Nat) (r : List Nat × List Nat) (hn : S.length < 2 ^ 63)
    (hP : ∀ i ∈ S, i < v.length) (h : argsortFn o k v S w 0 S.length 0 = some r) : runL (argsortC o k v S.length) S w = some ((), r.1, r.2) := by
  cases k with
  | quick =>
    obtain ⟨a, h1, rfl⟩ := Option.map_eq_some_iff.1 h
    exact quicksortC_run (computes_indirect o.lt v) (keyLt_swo ho.swo v) S w hn hP a h1
  | heap =>
    obtain ⟨a, h1, rfl⟩ := Option.map_eq_some_iff.1 h
    exact heapsortC_run S w 0 S.length a h1
  | merge =>
    unfold argsortFn at h
    simp only [Nat.zero_add] at h
    exact (amergesortC_run o v (S.length + 1)).1 S w 0 S.length 0 r (by omega) h

/-- Splitting off the part of the workspace a merge uses. -/
theorem merge_iso {V : Type} {cmp : V → V → Option Bool} {Q : List V → Prop} {L R : List V} (hhalf : L.length = (L.length + R.length) / 2)
    (h : ∀ W : List V, L.length ≤ W.length → ∃ S' W', Q S' ∧ W'.length = W.length ∧
      parMerge cmp ([] ++ L ++ R ++ []) ([] ++ W ++ []) 0 (L.length + R.length) 0 = some ([] ++ S' ++ [], [] ++ W' ++ []))
    (A B W1 W W2 : List V) {pl len pw : Nat} (h1 : pl = A.length) (h2 : len = L.length + R.length) (h3 : pw = W1.length) (hW : L.length ≤ W.length) :
    ∃ S' W', Q S' ∧ W'.length = W.length ∧ isoFn (parMergeC cmp) (A ++ L ++ R ++ B) (W1 ++ W ++ W2) pl len pw = some (A ++ S' ++ B, W1 ++ W' ++ W2) := by
  subst h1 h2 h3
  obtain ⟨S', W', q, hl, e⟩ := h (W.take L.length) (by rw [List.length_take]; omega)
  simp only [List.nil_append, List.append_nil] at e
  have hr := parMergeC_run _ _ _ _ e
  have hsp := List.take_append_drop L.length W
  have hm := isoFn_mid (c := parMergeC cmp) (A := A) (S := L ++ R) (B := B) (W1 := W1) (W := W.take L.length) (W2 := W.drop L.length ++ W2)
    (by rw [List.length_take, List.length_append]; omega) (by rw [List.length_append]; exact hr)
  rw [List.length_append] at hm
  refine ⟨S', W' ++ W.drop L.length, q, ?_, ?_⟩
  · rw [List.length_append, hl, ← List.length_append, hsp]
  · rw [show A ++ L ++ R ++ B = A ++ (L ++ R) ++ B by simp, show W1 ++ W ++ W2 = W1 ++ W.take L.length ++ (W.drop L.length ++ W2) by
      rw [List.append_assoc W1 (W.take _), ← List.append_assoc (W.take _), hsp, List.append_assoc], hm]
    simp

/-- The code of an in-place sort meets the contract. -/
theorem iso_sort_contract {α : Type} {o : Ops α} (ho : OpsOk o) (k : Kind) (f : Nat → List α) (hf : ∀ m, (f m).length = m) {n : Nat} (hn : n < 2 ^ 63) :
    Contract (isoOwn (sortC o k) f) (isoFn (parMergeC (direct o.lt))) n (Sorted3 o.lt k) (fun _ => True) where
  perm h := h.1
  leaf_ok {j} A S B w hj hA hS hw _ := by
    have hv : Valid 0 j := ⟨by omega, by simpa using hj⟩
    have hhi := nodeHi_le (n := n) hv
    obtain ⟨S', h1, h2, h3, h4⟩ := sortFn_correct ho k [] S [] (f (S.length / 2)) (hf _) (by omega)
    simp only [List.nil_append, List.append_nil, List.length_nil] at h1
    obtain ⟨w', h5⟩ := sortC_run ho k S _ S' (by omega) h1
    refine ⟨S', w, ?_, ⟨h2, h3, h4⟩, Within.refl _ _ _⟩
    rw [← hS, ← hA]
    exact isoOwn_mid _ h5
  merge_ok A L R B W1 W W2 SL SR pl len pw hL hR hPL hPR h1 h2 h3 h4 h5 h6 := by
    refine merge_iso (by omega) (fun W hW => ?_) A B W1 W W2 h1 h2 h3 h6
    exact sorted3_merge (computes_direct _) ho.swo k [] L R [] [] W [] SL SR hL hR hPL hPR rfl rfl rfl (by omega) (by omega) hW

/-- Splitting the workspace of a leaf after what its sort uses. -/
theorem leaf_ws_iso {V : Type} {n j : Nat} (hj : j < 8) (w : List V) (hw : w.length = 8 * chunk n) :
    ∃ W1 W W2, w = W1 ++ W ++ W2 ∧ W1.length = nodeWs n 0 j ∧ W.length = (nodeHi n 0 j - nodeLo n 0 j) / 2 ∧ nodeWs n 0 j + W.length ≤ nodeWs n 0 (j + 1) := by
  have hv : Valid 0 j := ⟨by omega, by simpa using hj⟩
  have h1 := nodeWs_le (n := n) hv
  have h2 := nodeWs_mono n 0 j
  have h3 := ws_enough (n := n) hv
  obtain ⟨A, S, B, h4, h5, h6⟩ := window w (Nat.le_add_right (nodeWs n 0 j) ((nodeHi n 0 j - nodeLo n 0 j) / 2)) (by omega)
  exact ⟨A, S, B, h4, h5, by omega, by omega⟩

theorem within_sub {V : Type} {lo hi hi' : Nat} {a' a : List V} (h : Within lo hi a' a) (hh : hi ≤ hi') : Within lo hi' a' a :=
  ⟨h.1, fun p hp => h.2 p (by omega)⟩

/-- The code of an indirect sort (keys without NaN for the merge sort). -/
theorem iso_arg_contract {α : Type} [Inhabited α] {o : Ops α} (ho : OpsOk o) (k : Kind) (v : List α) {n : Nat} (hn : n < 2 ^ 63) :
    Contract (isoFn (argsortC o k v)) (isoFn (parMergeC (indirect o.lt v))) n (Sorted3 (keyLt o.lt v) k)
      (fun i => i < v.length ∧ (k = .merge → GoodIx o v i)) where
  perm h := h.1
  leaf_ok {j} A S B w hj hA hS hw hP := by
    have hv : Valid 0 j := ⟨by omega, by simpa using hj⟩
    have hhi := nodeHi_le (n := n) hv
    obtain ⟨W1, W, W2, rfl, hW1, hW, hle⟩ := leaf_ws_iso hj w hw
    obtain ⟨S', W', h1, h2, h3⟩ := argsortFn_correct ho k v [] S [] [] W [] (by omega) (by omega) hP
    simp only [List.nil_append, List.append_nil, List.length_nil] at h3
    have h5 := argsortC_run ho k v S W _ (by omega) (fun i hi => (hP i hi).1) h3
    refine ⟨S', W1 ++ W' ++ W2, ?_, h1, within_sub (within_mid hW1.symm rfl h2) (by omega)⟩
    rw [← hS, ← hA, ← hW1]
    exact isoFn_mid (by omega) h5
  merge_ok A L R B W1 W W2 SL SR pl len pw hL hR hPL hPR h1 h2 h3 h4 h5 h6 := by
    refine merge_iso (by omega) (fun W hW => ?_) A B W1 W W2 h1 h2 h3 h6
    exact sorted3_merge ((computes_indirect o.lt v).mono fun i (hi : i < v.length ∧ (k = .merge → GoodIx o v i)) => hi.1)
      (keyLt_swo ho.swo v) k [] L R [] [] W [] SL SR hL hR hPL hPR rfl rfl rfl (by omega) (by omega) hW

/-- The code of an indirect sort, whatever the keys. -/
theorem iso_arg_perm_contract {α : Type} [Inhabited α] {o : Ops α} (ho : OpsOk o) (k : Kind) (v : List α) {n : Nat} (hn : n < 2 ^ 63) :
    Contract (isoFn (argsortC o k v)) (isoFn (parMergeC (indirect o.lt v))) n (fun S' S => S'.Perm S) (fun i => i < v.length) where
  perm h := h
  leaf_ok {j} A S B w hj hA hS hw hP := by
    have hv : Valid 0 j := ⟨by omega, by simpa using hj⟩
    have hhi := nodeHi_le (n := n) hv
    obtain ⟨W1, W, W2, rfl, hW1, hW, hle⟩ := leaf_ws_iso hj w hw
    have h : ∃ S' W', S'.Perm S ∧ W'.length = W.length ∧
        argsortFn o k v ([] ++ S ++ []) ([] ++ W ++ []) 0 S.length 0 = some ([] ++ S' ++ [], [] ++ W' ++ []) := by
      by_cases hk : k = .merge
      · subst hk
        simpa [argsortFn] using (pms_all ho v S.length).1 [] S [] [] W [] rfl (by omega) hP
      · obtain ⟨S', W', h1, h2, h3⟩ := argsortFn_correct ho k v [] S [] [] W [] (by omega) (by omega)
          (fun i hi => ⟨hP i hi, fun h => absurd h hk⟩)
        exact ⟨S', W', h1.1, h2, h3⟩
    obtain ⟨S', W', h1, h2, h3⟩ := h
    simp only [List.nil_append, List.append_nil] at h3
    have h5 := argsortC_run ho k v S W _ (by omega) hP h3
    refine ⟨S', W1 ++ W' ++ W2, ?_, h1, within_sub (within_mid hW1.symm rfl h2) (by omega)⟩
    rw [← hS, ← hA, ← hW1]
    exact isoFn_mid (by omega) h5
  merge_ok A L R B W1 W W2 SL SR pl len pw hL hR hPL hPR h1 h2 h3 h4 h5 h6 := by
    refine merge_iso (by omega) (fun W hW => ?_) A B W1 W W2 h1 h2 h3 h6
    obtain ⟨S', W', e1, e2, e3⟩ := parMerge_perm (computes_indirect o.lt v) [] L R [] [] W []
      (fun x hx => hPL x (hL.mem_iff.1 hx)) (fun x hx => hPR x (hR.mem_iff.1 hx)) (pl := 0) (len := L.length + R.length) (pw := 0) rfl rfl rfl (by omega) (by omega) hW
    exact ⟨S', W', e1.trans (hL.append hR), e2, e3⟩

/-! ### The programs are code for these functions -/

theorem argsortProg_code {α : Type} (o : Ops α) (k : Kind) (v : List α) (n : Nat) (P : Nat → Prop) :
    CodeFor (isoFn (argsortC o k v)) (isoFn (parMergeC (indirect o.lt v))) n none P (argsortProg o k v n) := by
  intro k' j a w a' w' m hk hj ha hw _ hws hbody
  have hv : Valid k' j := ⟨hk, hj⟩
  have hhi := nodeHi_le (n := n) hv
  have hlo := nodeLo_le (n := n) hv
  have hsn := snap_length (src := none) (n := n) (fun v h => by cases h) hv m
  have hm : ∀ i x, (snapOf n none k' j m)[i]? = some x → m (.arr (nodeLo n k' j + i)) = x := by
    intro i x hx
    refine snap_get (n := n) ?_
    unfold snapOf at hx
    simpa using hx
  have key : ∀ c : Nat → Code Nat Unit, isoFn c (splice a (nodeLo n k' j) (snapOf n none k' j m)) w (nodeLo n k' j) (nodeHi n k' j - nodeLo n k' j) (nodeWs n k' j) = some (a', w') →
      (∀ l ∈ seqAcc ((c (nodeHi n k' j - nodeLo n k' j)).prog (nodeLo n k' j) (nodeWs n k' j)) m, Own n k' j l) ∧
      ∀ i, nodeLo n k' j ≤ i → i < nodeHi n k' j → a'[i]? = some (seqRun ((c (nodeHi n k' j - nodeLo n k' j)).prog (nodeLo n k' j) (nodeWs n k' j)) m (.arr i)) := by
    intro c h
    unfold isoFn at h
    rw [show nodeLo n k' j + (nodeHi n k' j - nodeLo n k' j) = nodeHi n k' j by omega, seg_splice hsn hlo (by omega)] at h
    obtain ⟨r, hr, e⟩ := Option.map_eq_some_iff.1 h
    have hl := (run_len _ _ _ _ hr).1
    rw [splice_splice (by omega) hl] at e
    cases e
    exact node_shared hv ha hw hws hsn hm hr
  unfold body at hbody
  unfold argsortProg
  by_cases h0 : k' = 0
  · subst h0
    rw [if_pos rfl] at hbody ⊢
    exact key _ hbody
  · rw [if_neg h0] at hbody ⊢
    exact key _ hbody

theorem sortProg_code {α : Type} (o : Ops α) (k : Kind) (f : Nat → List α) (n : Nat) (src : Option (List α)) (hsrc : ∀ v, src = some v → v.length = n) (P : α → Prop) :
    CodeFor (isoOwn (sortC o k) f) (isoFn (parMergeC (direct o.lt))) n src P (sortProg o k f n src) := by
  intro k' j a w a' w' m hk hj ha hw _ hws hbody
  have hv : Valid k' j := ⟨hk, hj⟩
  have hhi := nodeHi_le (n := n) hv
  have hlo := nodeLo_le (n := n) hv
  have hsn := snap_length hsrc hv m
  unfold body at hbody
  unfold sortProg
  by_cases h0 : k' = 0
  · subst h0
    rw [if_pos rfl] at hbody ⊢
    unfold isoOwn at hbody
    rw [show nodeLo n 0 j + (nodeHi n 0 j - nodeLo n 0 j) = nodeHi n 0 j by omega, seg_splice hsn hlo (by omega)] at hbody
    obtain ⟨r, hr, e⟩ := Option.map_eq_some_iff.1 hbody
    have hl := (run_len _ _ _ _ hr).1
    rw [splice_splice (by omega) hl] at e
    cases e
    cases src with
    | none =>
      refine node_own hv ha hsn (fun i x hx => ?_) hr
      refine snap_get (n := n) ?_
      unfold snapOf at hx
      simpa using hx
    | some v =>
      have hvl := hsrc v rfl
      have hsv : snapOf n (some v) 0 j m = seg v (nodeLo n 0 j) (nodeHi n 0 j) := by unfold snapOf; simp
      rw [hsv] at hr hsn
      simp only
      obtain ⟨e1, e2⟩ := storeAll_run ((sortC o k (nodeHi n 0 j - nodeLo n 0 j)).progOwn (nodeLo n 0 j) (f ((nodeHi n 0 j - nodeLo n 0 j) / 2)))
        (seg v (nodeLo n 0 j) (nodeHi n 0 j)) (nodeLo n 0 j) m
      obtain ⟨h1, h2⟩ := node_own (c := sortC o k (nodeHi n 0 j - nodeLo n 0 j)) (W := f ((nodeHi n 0 j - nodeLo n 0 j) / 2)) hv ha
        (m := fun l : Loc => match l with | .arr x => if nodeLo n 0 j ≤ x then ((seg v (nodeLo n 0 j) (nodeHi n 0 j))[x - nodeLo n 0 j]?).getD (m (.arr x)) else m (.arr x) | l => m l)
        hsn (fun i x hx => by
          simp only [Nat.le_add_right, if_true, Nat.add_sub_cancel_left, hx, Option.getD_some]) hr
      refine ⟨fun l hl => ?_, fun i hi1 hi2 => by rw [e1]; exact h2 i hi1 hi2⟩
      rcases (e2 l).1 hl with ⟨x, hx, rfl⟩ | hl
      · exact ⟨by omega, by omega⟩
      · exact h1 l hl
  · rw [if_neg h0] at hbody ⊢
    unfold isoFn at hbody
    rw [show nodeLo n k' j + (nodeHi n k' j - nodeLo n k' j) = nodeHi n k' j by omega, seg_splice hsn hlo (by omega)] at hbody
    obtain ⟨r, hr, e⟩ := Option.map_eq_some_iff.1 hbody
    have hl := (run_len _ _ _ _ hr).1
    rw [splice_splice (by omega) hl] at e
    cases e
    refine node_shared hv ha hw hws hsn (fun i x hx => ?_) hr
    refine snap_get (n := n) ?_
    unfold snapOf at hx
    simpa [h0] using hx

end Pnumpy.SortCode
