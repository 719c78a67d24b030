import Verif.Proofs.ArgMergeSort
/-
The indirect merge sort rearranges the indices it is given, inside its memory, even when keys are NaN.
-/
namespace Pnumpy.Sort
variable {α : Type} [Inhabited α]

/-- Result of `amergesort0` for arbitrary keys. -/
def PMS0 (o : Ops α) (v : List α) (n : Nat) : Prop :=
  ∀ (A S B W1 W W2 : List Nat), S.length = n → n / 2 ≤ W.length → (∀ i ∈ S, i < v.length) →
    ∃ S' W', S'.Perm S ∧ W'.length = W.length ∧
      amergesort0 o v (A ++ S ++ B) (W1 ++ W ++ W2) A.length (A.length + n) W1.length =
        some (A ++ S' ++ B, W1 ++ W' ++ W2)

/-- Result of `amergesort0left`. -/
def PMSL (o : Ops α) (v : List α) (n : Nat) : Prop :=
  ∀ (A S B W1 W W2 : List Nat), S.length = n → n ≤ W.length → (∀ i ∈ S, i < v.length) →
    ∃ S' X W' , S'.Perm S ∧ X.length = n ∧
      ((W'.length = W.length ∧
        amergesort0left o v (A ++ S ++ B) (W1 ++ W ++ W2) A.length (A.length + n) W1.length =
        some (A ++ S' ++ B, W1 ++ W' ++ W2, false)) ∨
      (n + W'.length = W.length ∧
        amergesort0left o v (A ++ S ++ B) (W1 ++ W ++ W2) A.length (A.length + n) W1.length =
        some (A ++ X ++ B, W1 ++ (S' ++ W') ++ W2, true)))

theorem pms0_small {o : Ops α} (ho : OpsOk o) (v : List α) {n : Nat} (hn : ¬ n > 15) : PMS0 o v n := by
  intro A S B W1 W W2 hS hW hP
  obtain ⟨S', h1, h2⟩ := insertion_ok (computes_indirect o.lt v) (keyLt_swo ho.swo v) A S B hP rfl
    (show A.length + n = A.length + S.length by rw [hS])
  refine ⟨S', W, h1.perm, rfl, ?_⟩
  rw [amergesort0, if_neg (by omega), h2]; rfl

theorem pmsl_small {o : Ops α} (ho : OpsOk o) (v : List α) {n : Nat} (hn : ¬ n > 15) : PMSL o v n := by
  intro A S B W1 W W2 hS hW hP
  obtain ⟨S', h1, h2⟩ := insertion_ok (computes_indirect o.lt v) (keyLt_swo ho.swo v) A S B hP rfl
    (show A.length + n = A.length + S.length by rw [hS])
  refine ⟨S', S, W, h1.perm, hS, Or.inl ⟨rfl, ?_⟩⟩
  rw [amergesort0left, if_neg (by omega), h2]; rfl

theorem pmsl_step {o : Ops α} (ho : OpsOk o) (v : List α) {n : Nat} (hn : n > 15) (h1 : PMS0 o v (n / 2))
    (h2 : PMS0 o v (n - n / 2)) : PMSL o v n := by
  intro A S B W1 W W2 hS hW hP
  have hpm : A.length + (A.length + n - A.length) / 2 = A.length + n / 2 := by simp
  obtain ⟨SL, SR, rfl, hSL, hSR⟩ := split_at S (n / 2) (by omega)
  have hPL : ∀ i ∈ SL, i < v.length := fun i hi => hP i (by simp [hi])
  have hPR : ∀ i ∈ SR, i < v.length := fun i hi => hP i (by simp [hi])
  have hSR' : SR.length = n - n / 2 := by simp at hS; omega
  obtain ⟨R, Wa, hR, hWa, hrunR⟩ := h2 (A ++ SL) SR B W1 W W2 hSR' (by omega) hPR
  obtain ⟨L, Wb, hL, hWb, hrunL⟩ := h1 A SL (R ++ B) W1 Wa W2 hSL (by omega) hPL
  have hRlen : R.length = n - n / 2 := by rw [hR.length_eq, hSR']
  have hLlen : L.length = n / 2 := by rw [hL.length_eq, hSL]
  have hPL' : ∀ i ∈ L, i < v.length := fun i hi => hPL i (hL.mem_iff.1 hi)
  have hPR' : ∀ i ∈ R, i < v.length := fun i hi => hPR i (hR.mem_iff.1 hi)
  obtain ⟨L0, y, hLy⟩ := exists_last L (by omega)
  obtain ⟨x, R0, hRx⟩ := exists_head R (by omega)
  have hPy : y < v.length := hPL' y (by rw [hLy]; simp)
  have hPx : x < v.length := hPR' x (by rw [hRx]; simp)
  have hr1 : amergesort0 o v (A ++ (SL ++ SR) ++ B) (W1 ++ W ++ W2) (A.length + n / 2) (A.length + n)
      W1.length = some (A ++ SL ++ R ++ B, W1 ++ Wa ++ W2) := by
    rw [← hrunR]
    congr 1 <;> simp <;> omega
  have hr2 : amergesort0 o v (A ++ SL ++ R ++ B) (W1 ++ Wa ++ W2) A.length (A.length + n / 2)
      W1.length = some (A ++ L ++ (R ++ B), W1 ++ Wb ++ W2) := by
    rw [← hrunL]
    congr 1; simp
  have hgx : (A ++ L ++ (R ++ B))[A.length + n / 2]? = some x := by
    rw [hRx]
    have e : A ++ L ++ (x :: R0 ++ B) = (A ++ L) ++ x :: (R0 ++ B) := by simp
    rw [e]; exact get_mid (by simp; omega)
  have hgy : (A ++ L ++ (R ++ B))[A.length + n / 2 - 1]? = some y := by
    rw [hLy]
    have e : A ++ (L0 ++ [y]) ++ (R ++ B) = (A ++ L0) ++ y :: (R ++ B) := by simp
    rw [hLy] at hLlen; simp at hLlen
    rw [e]; exact get_mid (by simp; omega)
  have hcmp := computes_indirect o.lt v x y hPx hPy
  cases hb : keyLt o.lt v x y
  · refine ⟨L ++ R, SL ++ SR, Wb, hL.append hR, hS, Or.inl ⟨by omega, ?_⟩⟩
    rw [amergesort0left, if_pos (by omega)]
    simp only [hpm, hr1, hr2, Option.bind_eq_bind, Option.bind_some, hgx, hgy, hcmp, hb, Bool.false_eq_true, if_false]
    simp
  · obtain ⟨G, W', rfl, hG, hW'⟩ := split_at Wb n (by omega)
    have hm := mergeOut_ok (tr := indirect o.lt v) (t := keyLt o.lt v) A L R [] B W1 G (W' ++ W2) (by simp; omega)
      (fun r hr l hl => computes_indirect o.lt v r l (hPR' r hr) (hPL' l hl))
      (pl := A.length) (pm := A.length + n / 2) (pr := A.length + n)
      (origpr := A.length + n) (pw := W1.length) rfl (by omega) (by omega) (by simp; omega) rfl
    refine ⟨mergeL (keyLt o.lt v) L R, L ++ R, W', ?_, by simp; omega, Or.inr ⟨by omega, ?_⟩⟩
    · exact (mergeL_perm _ L R).trans (hL.append hR)
    · rw [amergesort0left, if_pos (by omega)]
      simp only [hpm, hr1, hr2, Option.bind_eq_bind, Option.bind_some, hgx, hgy, hcmp, hb, if_true]
      have ea : A ++ L ++ (R ++ B) = A ++ L ++ (R ++ []) ++ B := by simp
      have ew : W1 ++ (G ++ W') ++ W2 = W1 ++ G ++ (W' ++ W2) := by simp
      rw [ea, ew]
      simp only [Option.bind_eq_bind] at hm
      obtain ⟨m, hm1, hm2⟩ := Option.bind_eq_some_iff.1 hm
      obtain ⟨w, hm3, hm4⟩ := Option.bind_eq_some_iff.1 hm2
      rw [hm1, Option.bind_some, hm3, Option.bind_some, hm4, Option.bind_some]
      simp

theorem pms0_step {o : Ops α} (ho : OpsOk o) (v : List α) {n : Nat} (hn : n > 15) (h1 : PMSL o v (n / 2))
    (h2 : PMS0 o v (n - n / 2)) : PMS0 o v n := by
  intro A S B W1 W W2 hS hW hP
  have hpm : A.length + (A.length + n - A.length) / 2 = A.length + n / 2 := by simp
  obtain ⟨SL, SR, rfl, hSL, hSR⟩ := split_at S (n / 2) (by omega)
  have hPL : ∀ i ∈ SL, i < v.length := fun i hi => hP i (by simp [hi])
  have hPR : ∀ i ∈ SR, i < v.length := fun i hi => hP i (by simp [hi])
  have hSR' : SR.length = n - n / 2 := by simp at hS; omega
  obtain ⟨R, Wa, hR, hWa, hrunR⟩ := h2 (A ++ SL) SR B W1 W W2 hSR' (by omega) hPR
  obtain ⟨L, X, Wb, hL, hX, hcase⟩ := h1 A SL (R ++ B) W1 Wa W2 hSL (by omega) hPL
  have hRlen : R.length = n - n / 2 := by rw [hR.length_eq, hSR']
  have hLlen : L.length = n / 2 := by rw [hL.length_eq, hSL]
  obtain ⟨L0, y, hLy⟩ := exists_last L (by omega)
  obtain ⟨x, R0, hRx⟩ := exists_head R (by omega)
  have hPy : y < v.length := hPL y (hL.mem_iff.1 (by rw [hLy]; simp))
  have hPx : x < v.length := hPR x (hR.mem_iff.1 (by rw [hRx]; simp))
  have hcmp := computes_indirect o.lt v x y hPx hPy
  have hr1 : amergesort0 o v (A ++ (SL ++ SR) ++ B) (W1 ++ W ++ W2) (A.length + n / 2) (A.length + n)
      W1.length = some (A ++ SL ++ R ++ B, W1 ++ Wa ++ W2) := by
    rw [← hrunR]
    congr 1 <;> simp <;> omega
  have hea : A ++ SL ++ R ++ B = A ++ SL ++ (R ++ B) := by simp
  rcases hcase with ⟨hWb, hrunL⟩ | ⟨hWb, hrunL⟩
  · have hgx : (A ++ L ++ (R ++ B))[A.length + n / 2]? = some x := by
      rw [hRx]
      have e : A ++ L ++ (x :: R0 ++ B) = (A ++ L) ++ x :: (R0 ++ B) := by simp
      rw [e]; exact get_mid (by simp; omega)
    have hgy : (A ++ L ++ (R ++ B))[A.length + n / 2 - 1]? = some y := by
      rw [hLy]
      have e : A ++ (L0 ++ [y]) ++ (R ++ B) = (A ++ L0) ++ y :: (R ++ B) := by simp
      rw [hLy] at hLlen; simp at hLlen
      rw [e]; exact get_mid (by simp; omega)
    cases hb : keyLt o.lt v x y
    · refine ⟨L ++ R, Wb, hL.append hR, by omega, ?_⟩
      rw [amergesort0, if_pos (by omega)]
      simp only [hr1, Option.bind_eq_bind, Option.bind_some, hpm, hea, hrunL, Bool.false_eq_true, if_false,
        hgx, hgy, hcmp, hb]
      simp
    · obtain ⟨G, W', rfl, hG, hW'⟩ := split_at Wb (n / 2) (by omega)
      have hrun := mergeBack_ok (tr := indirect o.rawLt v) (t := keyLt o.rawLt v) (A := A) (G := L) (R := R)
        (B := B) (W1 := W1) (L := L) (W2 := W' ++ W2)
        (hG := rfl) (ht := fun r hr l hl => computes_indirect o.rawLt v r l (hPR r (hR.mem_iff.1 hr)) (hPL l (hL.mem_iff.1 hl))) (pl := A.length) (pm := A.length + n / 2) (pr := A.length + n)
        (pw := W1.length) (pwEnd := W1.length + (A.length + n / 2 - A.length))
        rfl (by omega) rfl (by omega) (by omega)
      refine ⟨mergeL (keyLt o.rawLt v) L R, L ++ W', (mergeL_perm _ L R).trans (hL.append hR), by simp at hWb hW' ⊢; omega, ?_⟩
      have hblit : blit (A ++ L ++ (R ++ B)) A.length (W1 ++ (G ++ W') ++ W2) W1.length
          (A.length + n / 2 - A.length) = some (W1 ++ L ++ (W' ++ W2)) := by
        have := blit_eq (A1 := A) (S := L) (A2 := R ++ B) (B1 := W1) (G := G) (B2 := W' ++ W2) (s := A.length)
          (d := W1.length) (n := A.length + n / 2 - A.length) rfl rfl (by omega) (by omega)
        rw [← this]; congr 1; simp
      rw [amergesort0, if_pos (by omega)]
      simp only [hr1, Option.bind_eq_bind, Option.bind_some, hpm, hea, hrunL, Bool.false_eq_true, if_false,
        hgx, hgy, hcmp, hb, if_true, hblit]
      simp only [Option.bind_eq_bind] at hrun
      obtain ⟨m, hm1, hm2⟩ := Option.bind_eq_some_iff.1 hrun
      have ea : A ++ L ++ (R ++ B) = A ++ L ++ R ++ B := by simp
      rw [ea, hm1, Option.bind_some, hm2, Option.bind_some]
      simp
  · have hrun := mergeBack_ok (tr := indirect o.rawLt v) (t := keyLt o.rawLt v) (A := A) (G := X) (R := R)
      (B := B) (W1 := W1) (L := L) (W2 := Wb ++ W2)
      (hG := by omega) (ht := fun r hr l hl => computes_indirect o.rawLt v r l (hPR r (hR.mem_iff.1 hr)) (hPL l (hL.mem_iff.1 hl))) (pl := A.length) (pm := A.length + n / 2) (pr := A.length + n)
      (pw := W1.length) (pwEnd := W1.length + (A.length + n / 2 - A.length))
      rfl (by omega) rfl (by omega) (by omega)
    refine ⟨mergeL (keyLt o.rawLt v) L R, L ++ Wb, (mergeL_perm _ L R).trans (hL.append hR), by simp; omega, ?_⟩
    rw [amergesort0, if_pos (by omega)]
    simp only [hr1, Option.bind_eq_bind, Option.bind_some, hpm, hea, hrunL, if_true]
    simp only [Option.bind_eq_bind] at hrun
    obtain ⟨m, hm1, hm2⟩ := Option.bind_eq_some_iff.1 hrun
    have ea : A ++ X ++ (R ++ B) = A ++ X ++ R ++ B := by simp
    have ew : W1 ++ (L ++ Wb) ++ W2 = W1 ++ L ++ (Wb ++ W2) := by simp
    rw [ea, ew, hm1, Option.bind_some, hm2, Option.bind_some]

/-- The indirect merge sort, whatever the keys. -/
theorem pms_all {o : Ops α} (ho : OpsOk o) (v : List α) (n : Nat) : PMS0 o v n ∧ PMSL o v n := by
  induction n using Nat.strongRecOn with
  | _ n ih =>
    by_cases hn : n > 15
    · have a := ih (n / 2) (by omega)
      have b := ih (n - n / 2) (by omega)
      exact ⟨pms0_step ho v hn a.2 b.1, pmsl_step ho v hn a.1 b.1⟩
    · exact ⟨pms0_small ho v hn, pmsl_small ho v hn⟩

end Pnumpy.Sort
