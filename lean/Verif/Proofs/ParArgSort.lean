import Verif.Props.ParSort
/-
The parallel indirect sorts.
-/
namespace Pnumpy.Props
open Spec Pnumpy.Sort Pnumpy.ParSort

section
variable {α : Type} [Inhabited α]

/-- One indirect sort of the indices `S` that stand between others. -/
theorem argsortFn_correct {o : Ops α} (ho : OpsOk o) (k : Kind) (v : List α) (A S B W1 W W2 : List Nat)
    (hW : S.length / 2 ≤ W.length) (hn : S.length < 2 ^ 63)
    (hP : ∀ i ∈ S, i < v.length ∧ (k = .merge → GoodIx o v i)) :
    ∃ S' W', Sorted3 (keyLt o.lt v) k S' S ∧ W'.length = W.length ∧
      argsortFn o k v (A ++ S ++ B) (W1 ++ W ++ W2) A.length S.length W1.length = some (A ++ S' ++ B, W1 ++ W' ++ W2) := by
  have hframe : ∀ a', Frame A.length (A.length + S.length) a' (A ++ S ++ B) →
      AscAt (keyLt o.lt v) A.length (A.length + S.length) a' →
      ∃ S', a' = A ++ S' ++ B ∧ S'.Perm S ∧ Asc (keyLt o.lt v) S' := by
    intro a' h1 h2
    obtain ⟨S', rfl, hp⟩ := h1.list
    exact ⟨S', rfl, hp, AscAt.list (A := A) (B := B) (by rw [hp.length_eq]; exact h2)⟩
  have hP' : AllIn (fun i => i < v.length) A.length (A.length + S.length) (A ++ S ++ B) :=
    allIn_mid fun i hi => (hP i hi).1
  cases k with
  | quick =>
    obtain ⟨a', h1, h2, h3⟩ := quicksort_ok (computes_indirect o.lt v) (keyLt_swo ho.swo v) hn (A ++ S ++ B)
      (start := A.length) (by simp) hP'
    obtain ⟨S', rfl, hp, ha⟩ := hframe a' h2 h3
    exact ⟨S', W, ⟨hp, ha, by simp⟩, rfl, by simp only [argsortFn, h1, Option.map_some]⟩
  | heap =>
    obtain ⟨a', h1, h2, h3⟩ := heapsort_ok (computes_indirect o.lt v) (keyLt_swo ho.swo v) (base := A.length)
      (n := S.length) (A ++ S ++ B) (by simp) hP'
    obtain ⟨S', rfl, hp, ha⟩ := hframe a' h2 h3
    exact ⟨S', W, ⟨hp, ha, by simp⟩, rfl, by simp only [argsortFn, h1, Option.map_some]⟩
  | merge =>
    obtain ⟨S', W', h1, h2, h3⟩ := (ams_all ho v S.length).1 A S B W1 W W2 rfl hW (fun i hi => (hP i hi).2 rfl)
    exact ⟨S', W', ⟨h1.perm, h1.asc, fun _ => h1⟩, h2, h3⟩

/-- Splitting the workspace at a leaf. -/
theorem leaf_ws {n j : Nat} (hj : j < 8) (w : List Nat) (hw : w.length = 8 * chunk n) :
    ∃ W1 W W2, w = W1 ++ W ++ W2 ∧ W1.length = nodeWs n 0 j ∧ W.length = nodeWs n 0 (j + 1) - nodeWs n 0 j := by
  have hv : Valid 0 j := ⟨by omega, by simpa using hj⟩
  have h1 := nodeWs_le (n := n) hv
  have h2 := nodeWs_mono n 0 j
  obtain ⟨A, S, B, h3, h4, h5⟩ := window w h2 (by omega)
  exact ⟨A, S, B, h3, h4, h5⟩

/-- The indirect sorts (keys without NaN for the merge sort). -/
theorem arg_contract {o : Ops α} (ho : OpsOk o) (k : Kind) (v : List α) {n : Nat} (hn : n < 2 ^ 63) :
    Contract (leafArg o k v) (parMerge (indirect o.lt v)) n (Sorted3 (keyLt o.lt v) k)
      (fun i => i < v.length ∧ (k = .merge → GoodIx o v i)) where
  perm h := h.1
  leaf_ok {j} A S B w hj hA hS hw hP := by
    have hv : Valid 0 j := ⟨by omega, by simpa using hj⟩
    have hhi := nodeHi_le (n := n) hv
    have hws := ws_enough (n := n) hv
    have hwm := nodeWs_mono n 0 j
    obtain ⟨W1, W, W2, rfl, hW1, hW⟩ := leaf_ws hj w hw
    obtain ⟨S', W', h1, h2, h3⟩ := argsortFn_correct ho k v A S B W1 W W2 (by omega) (by omega) hP
    refine ⟨S', W1 ++ W' ++ W2, ?_, h1, within_mid hW1.symm (by omega) h2⟩
    unfold leafArg
    rw [← hS, ← hA, ← hW1, h3]
  merge_ok A L R B W1 W W2 SL SR pl len pw := sorted3_merge
    ((computes_indirect o.lt v).mono fun i (hi : i < v.length ∧ (k = .merge → GoodIx o v i)) => hi.1)
    (keyLt_swo ho.swo v) k A L R B W1 W W2 SL SR

/-- A merge of arbitrary runs (also runs that are not sorted because of NaN keys) rearranges. -/
theorem parMerge_perm {β : Type} {cmp : β → β → Option Bool} {lt : β → β → Bool} {P : β → Prop} (hc : Computes cmp lt P)
    (A L R B W1 W W2 : List β) (hPL : ∀ x ∈ L, P x)
    (hPR : ∀ x ∈ R, P x) {pl len pw : Nat} (h1 : pl = A.length) (h2 : len = L.length + R.length) (h3 : pw = W1.length)
    (hhalf : L.length = len / 2) (hpos : 2 ≤ len) (hW : L.length ≤ W.length) :
    ∃ S' W', S'.Perm (L ++ R) ∧ W'.length = W.length ∧
      parMerge cmp (A ++ L ++ R ++ B) (W1 ++ W ++ W2) pl len pw = some (A ++ S' ++ B, W1 ++ W' ++ W2) := by
  subst h1 h3
  obtain ⟨L0, y, hLy⟩ := exists_last L (by omega)
  obtain ⟨x, R0, hRx⟩ := exists_head R (by omega)
  have hPy : P y := hPL y (by rw [hLy]; simp)
  have hPx : P x := hPR x (by rw [hRx]; simp)
  have hcmp := hc x y hPx hPy
  have hgx : (A ++ L ++ R ++ B)[A.length + len / 2]? = some x := by
    rw [hRx]
    have e : A ++ L ++ x :: R0 ++ B = (A ++ L) ++ x :: (R0 ++ B) := by simp
    rw [e]; exact get_mid (by simp; omega)
  have hgy : (A ++ L ++ R ++ B)[A.length + len / 2 - 1]? = some y := by
    rw [hLy]
    have e : A ++ (L0 ++ [y]) ++ R ++ B = (A ++ L0) ++ y :: (R ++ B) := by simp
    rw [hLy] at hhalf; simp at hhalf
    rw [e]; exact get_mid (by simp; omega)
  cases hb : lt x y
  · refine ⟨L ++ R, W, List.Perm.refl _, rfl, ?_⟩
    unfold parMerge
    rw [if_neg (by omega)]
    simp only [Option.bind_eq_bind, Option.bind_some, hgx, hgy, hcmp, hb, Bool.false_eq_true, if_false]
    simp
  · obtain ⟨G, W', rfl, hG, hW'⟩ := split_at W (len / 2) (by omega)
    have hrun := mergeBack_ok (tr := cmp) (t := lt) (A := A) (G := L) (R := R)
      (B := B) (W1 := W1) (L := L) (W2 := W' ++ W2) (hG := rfl)
      (ht := fun r hr l hl => hc r l (hPR r hr) (hPL l hl)) (pl := A.length) (pm := A.length + len / 2) (pr := A.length + len)
      (pw := W1.length) (pwEnd := W1.length + (A.length + len / 2 - A.length))
      rfl (by omega) rfl (by omega) (by omega)
    refine ⟨mergeL lt L R, L ++ W', mergeL_perm _ L R, by simp; omega, ?_⟩
    have hblit : blit (A ++ L ++ R ++ B) A.length (W1 ++ (G ++ W') ++ W2) W1.length
        (A.length + len / 2 - A.length) = some (W1 ++ L ++ (W' ++ W2)) := by
      have := blit_eq (A1 := A) (S := L) (A2 := R ++ B) (B1 := W1) (G := G) (B2 := W' ++ W2) (s := A.length)
        (d := W1.length) (n := A.length + len / 2 - A.length) rfl rfl (by omega) (by omega)
      rw [← this]; congr 1 <;> simp
    unfold parMerge
    rw [if_neg (by omega)]
    simp only [Option.bind_eq_bind, Option.bind_some, hgx, hgy, hcmp, hb, if_true, hblit]
    simp only [Option.bind_eq_bind] at hrun
    obtain ⟨m, hm1, hm2⟩ := Option.bind_eq_some_iff.1 hrun
    rw [hm1, Option.bind_some, hm2, Option.bind_some]
    simp

/-- The indirect sorts, whatever the keys. -/
theorem arg_perm_contract {o : Ops α} (ho : OpsOk o) (k : Kind) (v : List α) {n : Nat} (hn : n < 2 ^ 63) :
    Contract (leafArg o k v) (parMerge (indirect o.lt v)) n (fun S' S => S'.Perm S) (fun i => i < v.length) where
  perm h := h
  leaf_ok {j} A S B w hj hA hS hw hP := by
    have hv : Valid 0 j := ⟨by omega, by simpa using hj⟩
    have hhi := nodeHi_le (n := n) hv
    have hws := ws_enough (n := n) hv
    have hwm := nodeWs_mono n 0 j
    obtain ⟨W1, W, W2, rfl, hW1, hW⟩ := leaf_ws hj w hw
    have h : ∃ S' W', S'.Perm S ∧ W'.length = W.length ∧
        argsortFn o k v (A ++ S ++ B) (W1 ++ W ++ W2) A.length S.length W1.length = some (A ++ S' ++ B, W1 ++ W' ++ W2) := by
      by_cases hk : k = .merge
      · subst hk
        exact (pms_all ho v S.length).1 A S B W1 W W2 rfl (by omega) hP
      · obtain ⟨S', W', h1, h2, h3⟩ := argsortFn_correct ho k v A S B W1 W W2 (by omega) (by omega)
          (fun i hi => ⟨hP i hi, fun h => absurd h hk⟩)
        exact ⟨S', W', h1.1, h2, h3⟩
    obtain ⟨S', W', h1, h2, h3⟩ := h
    refine ⟨S', W1 ++ W' ++ W2, ?_, h1, within_mid hW1.symm (by omega) h2⟩
    unfold leafArg
    rw [← hS, ← hA, ← hW1, h3]
  merge_ok A L R B W1 W W2 SL SR pl len pw hL hR hPL hPR h1 h2 h3 h4 h5 h6 := by
    obtain ⟨S', W', e1, e2, e3⟩ := parMerge_perm (computes_indirect o.lt v) A L R B W1 W W2
      (fun x hx => hPL x (hL.mem_iff.1 hx)) (fun x hx => hPR x (hR.mem_iff.1 hx)) h1 h2 h3 h4 h5 h6
    exact ⟨S', W', e1.trans (hL.append hR), e2, e3⟩

end
end Pnumpy.Props
