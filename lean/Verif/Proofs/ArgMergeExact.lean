import Verif.Proofs.ArgMergePerm
import Verif.Spec.ArgMerge
/-
The exact result of the indirect merge sort, whatever the keys (NaN included).
-/
namespace Pnumpy.Sort
open Spec
variable {α : Type} [Inhabited α]

theorem mergeRef_eq {β : Type} (tr : β → β → Bool) : ∀ (L R : List β), mergeRef tr L R = mergeL tr L R := by
  intro L R
  fun_induction mergeL tr L R with
  | case1 => simp [mergeRef]
  | case2 => simp [mergeRef]
  | case3 l L r R h ih => rw [mergeRef, if_pos h, ih]
  | case4 l L r R h ih => rw [mergeRef, if_neg h, ih]

theorem smallRef_SS {lt : Nat → Nat → Bool} (hs : SWO lt) (S : List Nat) : SS lt (smallRef lt S) S := by
  have : ∀ (T acc S0 : List Nat), SS lt acc S0 → SS lt (T.foldl (fun acc x => mergeRef lt acc [x]) acc) (S0 ++ T) := by
    intro T
    induction T with
    | nil => intro acc S0 h; simpa using h
    | cons x T ih =>
      intro acc S0 h
      rw [List.foldl_cons]
      have := ih (mergeRef lt acc [x]) (S0 ++ [x]) (by
        rw [mergeRef_eq]
        have h1 := mergeL_SS hs acc [x] h.asc (by unfold Asc; simp)
        exact SS.of_halves h1 h (SS.refl (by unfold Asc; simp)))
      simpa using this
  have := this S [] [] (SS.refl (by unfold Asc; simp))
  simpa [smallRef] using this

theorem ref_perm {lt raw : Nat → Nat → Bool} (hs : SWO lt) (f : Nat) : ∀ S : List Nat, (argMs lt raw f S).Perm S ∧ (argMsL lt raw f S).1.Perm S := by
  induction f with
  | zero => intro S; exact ⟨by rw [argMs], by rw [argMsL]⟩
  | succ f ih =>
    intro S
    have hh : ∀ (L R : List Nat), L.Perm (S.take (S.length / 2)) → R.Perm (S.drop (S.length / 2)) → (L ++ R).Perm S := by
      intro L R h1 h2
      have := h1.append h2
      rwa [List.take_append_drop] at this
    have hL := ih (S.take (S.length / 2))
    have hR := ih (S.drop (S.length / 2))
    refine ⟨?_, ?_⟩
    · rw [argMs]
      split
      · split
        · rw [mergeRef_eq]; exact (mergeL_perm _ _ _).trans (hh _ _ hL.2 hR.1)
        · exact hh _ _ hL.2 hR.1
      · exact (smallRef_SS hs S).perm
    · rw [argMsL]
      split
      · split
        · show (mergeRef _ _ _).Perm S
          rw [mergeRef_eq]; exact (mergeL_perm _ _ _).trans (hh _ _ hL.1 hR.1)
        · exact hh _ _ hL.1 hR.1
      · exact (smallRef_SS hs S).perm

/-- Result of `amergesort0` for arbitrary keys. -/
def EMS0 (o : Ops α) (v : List α) (n : Nat) : Prop :=
  ∀ (f : Nat) (A S B W1 W W2 : List Nat), n ≤ f → S.length = n → n / 2 ≤ W.length → (∀ i ∈ S, i < v.length) →
    ∃ W', W'.length = W.length ∧
      amergesort0 o v (A ++ S ++ B) (W1 ++ W ++ W2) A.length (A.length + n) W1.length =
        some (A ++ argMs (keyLt o.lt v) (keyLt o.rawLt v) f S ++ B, W1 ++ W' ++ W2)

/-- Result of `amergesort0left`. -/
def EMSL (o : Ops α) (v : List α) (n : Nat) : Prop :=
  ∀ (f : Nat) (A S B W1 W W2 : List Nat), n ≤ f → S.length = n → n ≤ W.length → (∀ i ∈ S, i < v.length) →
    ∃ X W', X.length = n ∧
      ((W'.length = W.length ∧ (argMsL (keyLt o.lt v) (keyLt o.rawLt v) f S).2 = false ∧
        amergesort0left o v (A ++ S ++ B) (W1 ++ W ++ W2) A.length (A.length + n) W1.length =
        some (A ++ (argMsL (keyLt o.lt v) (keyLt o.rawLt v) f S).1 ++ B, W1 ++ W' ++ W2, false)) ∨
      (n + W'.length = W.length ∧ (argMsL (keyLt o.lt v) (keyLt o.rawLt v) f S).2 = true ∧
        amergesort0left o v (A ++ S ++ B) (W1 ++ W ++ W2) A.length (A.length + n) W1.length =
        some (A ++ X ++ B, W1 ++ ((argMsL (keyLt o.lt v) (keyLt o.rawLt v) f S).1 ++ W') ++ W2, true)))

theorem small_eq {o : Ops α} (ho : OpsOk o) (v : List α) {f n : Nat} {S S' : List Nat} (hf : n ≤ f) (hS : S.length = n) (hn : ¬ n > 15) (h : SS (keyLt o.lt v) S' S) :
    argMs (keyLt o.lt v) (keyLt o.rawLt v) f S = S' ∧ argMsL (keyLt o.lt v) (keyLt o.rawLt v) f S = (S', false) := by
  cases f with
  | zero =>
    obtain rfl : S = [] := List.length_eq_zero_iff.1 (by omega)
    obtain rfl : S' = [] := h.perm.eq_nil
    exact ⟨by rw [argMs], by rw [argMsL]⟩
  | succ f =>
    have := SS.eq (keyLt_swo ho.swo v) (smallRef_SS (keyLt_swo ho.swo v) S) h
    refine ⟨?_, ?_⟩
    · rw [argMs, if_neg (by omega), this]
    · rw [argMsL, if_neg (by omega), this]

theorem ems0_small {o : Ops α} (ho : OpsOk o) (v : List α) {n : Nat} (hn : ¬ n > 15) : EMS0 o v n := by
  intro f A S B W1 W W2 hf hS hW hP
  obtain ⟨S', h1, h2⟩ := insertion_ok (computes_indirect o.lt v) (keyLt_swo ho.swo v) A S B hP rfl
    (show A.length + n = A.length + S.length by rw [hS])
  refine ⟨W, rfl, ?_⟩
  rw [amergesort0, if_neg (by omega), h2, (small_eq ho v hf hS hn h1).1]; rfl

theorem emsl_small {o : Ops α} (ho : OpsOk o) (v : List α) {n : Nat} (hn : ¬ n > 15) : EMSL o v n := by
  intro f A S B W1 W W2 hf hS hW hP
  obtain ⟨S', h1, h2⟩ := insertion_ok (computes_indirect o.lt v) (keyLt_swo ho.swo v) A S B hP rfl
    (show A.length + n = A.length + S.length by rw [hS])
  have he := (small_eq ho v hf hS hn h1).2
  refine ⟨S, W, hS, Or.inl ⟨rfl, by rw [he], ?_⟩⟩
  rw [amergesort0left, if_neg (by omega), h2, he]; rfl

theorem needs_eq {lt : Nat → Nat → Bool} {L R L0 R0 : List Nat} {x y : Nat} (hL : L = L0 ++ [y]) (hR : R = x :: R0) : needsMerge lt L R = lt x y := by
  subst hL hR; simp [needsMerge]

theorem emsl_step {o : Ops α} (ho : OpsOk o) (v : List α) {n : Nat} (hn : n > 15) (h1 : EMS0 o v (n / 2))
    (h2 : EMS0 o v (n - n / 2)) : EMSL o v n := by
  intro f A S B W1 W W2 hf hS hW hP
  obtain ⟨f, rfl⟩ : ∃ g, f = g + 1 := ⟨f - 1, by omega⟩
  have hpm : A.length + (A.length + n - A.length) / 2 = A.length + n / 2 := by simp
  obtain ⟨SL, hSLe⟩ : ∃ SL, SL = S.take (S.length / 2) := ⟨_, rfl⟩
  obtain ⟨SR, hSRe⟩ : ∃ SR, SR = S.drop (S.length / 2) := ⟨_, rfl⟩
  have hSe : S = SL ++ SR := by rw [hSLe, hSRe, List.take_append_drop]
  have hPL : ∀ i ∈ SL, i < v.length := fun i hi => hP i (by rw [hSe]; simp [hi])
  have hPR : ∀ i ∈ SR, i < v.length := fun i hi => hP i (by rw [hSe]; simp [hi])
  have hSL : SL.length = n / 2 := by rw [hSLe, List.length_take]; omega
  have hSR' : SR.length = n - n / 2 := by rw [hSRe, List.length_drop]; omega
  obtain ⟨Wa, hWa, hrunR⟩ := h2 f (A ++ SL) SR B W1 W W2 (by omega) hSR' (by omega) hPR
  have hR := (ref_perm (raw := keyLt o.rawLt v) (keyLt_swo ho.swo v) f SR).1
  obtain ⟨R, hRe⟩ : ∃ R, R = argMs (keyLt o.lt v) (keyLt o.rawLt v) f SR := ⟨_, rfl⟩
  rw [← hRe] at hR hrunR
  obtain ⟨Wb, hWb, hrunL⟩ := h1 f A SL (R ++ B) W1 Wa W2 (by omega) hSL (by omega) hPL
  have hL := (ref_perm (raw := keyLt o.rawLt v) (keyLt_swo ho.swo v) f SL).1
  obtain ⟨L, hLe⟩ : ∃ L, L = argMs (keyLt o.lt v) (keyLt o.rawLt v) f SL := ⟨_, rfl⟩
  rw [← hLe] at hL hrunL
  have hRlen : R.length = n - n / 2 := by rw [hR.length_eq, hSR']
  have hLlen : L.length = n / 2 := by rw [hL.length_eq, hSL]
  have hPL' : ∀ i ∈ L, i < v.length := fun i hi => hPL i (hL.mem_iff.1 hi)
  have hPR' : ∀ i ∈ R, i < v.length := fun i hi => hPR i (hR.mem_iff.1 hi)
  obtain ⟨L0, y, hLy⟩ := exists_last L (by omega)
  obtain ⟨x, R0, hRx⟩ := exists_head R (by omega)
  have hPy : y < v.length := hPL' y (by rw [hLy]; simp)
  have hPx : x < v.length := hPR' x (by rw [hRx]; simp)
  have hr1 : amergesort0 o v (A ++ (SL ++ SR) ++ B) (W1 ++ W ++ W2) (A.length + n / 2) (A.length + n)
      W1.length = some (A ++ SL ++ R ++ B, W1 ++ Wa ++ W2) := by
    rw [← hrunR]
    congr 1 <;> simp <;> omega
  have hr2 : amergesort0 o v (A ++ SL ++ R ++ B) (W1 ++ Wa ++ W2) A.length (A.length + n / 2)
      W1.length = some (A ++ L ++ (R ++ B), W1 ++ Wb ++ W2) := by
    rw [← hrunL]
    congr 1; simp
  have hgx : (A ++ L ++ (R ++ B))[A.length + n / 2]? = some x := by
    rw [hRx]
    have e : A ++ L ++ (x :: R0 ++ B) = (A ++ L) ++ x :: (R0 ++ B) := by simp
    rw [e]; exact get_mid (by simp; omega)
  have hgy : (A ++ L ++ (R ++ B))[A.length + n / 2 - 1]? = some y := by
    rw [hLy]
    have e : A ++ (L0 ++ [y]) ++ (R ++ B) = (A ++ L0) ++ y :: (R ++ B) := by simp
    rw [hLy] at hLlen; simp at hLlen
    rw [e]; exact get_mid (by simp; omega)
  have hcmp := computes_indirect o.lt v x y hPx hPy
  have href : argMsL (keyLt o.lt v) (keyLt o.rawLt v) (f + 1) S =
      if keyLt o.lt v x y then (mergeL (keyLt o.lt v) L R, true) else (L ++ R, false) := by
    rw [argMsL, if_pos (by omega), ← hSLe, ← hSRe, ← hLe, ← hRe, needs_eq hLy hRx, mergeRef_eq]
  rw [href, hSe]
  cases hb : keyLt o.lt v x y
  · refine ⟨SL ++ SR, Wb, by rw [← hSe]; exact hS, Or.inl ⟨by omega, by simp, ?_⟩⟩
    rw [amergesort0left, if_pos (by omega)]
    simp only [hpm, hr1, hr2, Option.bind_eq_bind, Option.bind_some, hgx, hgy, hcmp, hb, Bool.false_eq_true, if_false]
    simp
  · obtain ⟨G, W', rfl, hG, hW'⟩ := split_at Wb n (by omega)
    have hm := mergeOut_ok (tr := indirect o.lt v) (t := keyLt o.lt v) A L R [] B W1 G (W' ++ W2) (by simp; omega)
      (fun r hr l hl => computes_indirect o.lt v r l (hPR' r hr) (hPL' l hl))
      (pl := A.length) (pm := A.length + n / 2) (pr := A.length + n)
      (origpr := A.length + n) (pw := W1.length) rfl (by omega) (by omega) (by simp; omega) rfl
    refine ⟨L ++ R, W', by simp; omega, Or.inr ⟨by omega, by simp, ?_⟩⟩
    rw [amergesort0left, if_pos (by omega)]
    simp only [hpm, hr1, hr2, Option.bind_eq_bind, Option.bind_some, hgx, hgy, hcmp, hb, if_true]
    have ea : A ++ L ++ (R ++ B) = A ++ L ++ (R ++ []) ++ B := by simp
    have ew : W1 ++ (G ++ W') ++ W2 = W1 ++ G ++ (W' ++ W2) := by simp
    rw [ea, ew]
    simp only [Option.bind_eq_bind] at hm
    obtain ⟨m, hm1, hm2⟩ := Option.bind_eq_some_iff.1 hm
    obtain ⟨w, hm3, hm4⟩ := Option.bind_eq_some_iff.1 hm2
    rw [hm1, Option.bind_some, hm3, Option.bind_some, hm4, Option.bind_some]
    simp

theorem ems0_step {o : Ops α} (ho : OpsOk o) (v : List α) {n : Nat} (hn : n > 15) (h1 : EMSL o v (n / 2))
    (h2 : EMS0 o v (n - n / 2)) : EMS0 o v n := by
  intro f A S B W1 W W2 hf hS hW hP
  obtain ⟨f, rfl⟩ : ∃ g, f = g + 1 := ⟨f - 1, by omega⟩
  have hpm : A.length + (A.length + n - A.length) / 2 = A.length + n / 2 := by simp
  obtain ⟨SL, hSLe⟩ : ∃ SL, SL = S.take (S.length / 2) := ⟨_, rfl⟩
  obtain ⟨SR, hSRe⟩ : ∃ SR, SR = S.drop (S.length / 2) := ⟨_, rfl⟩
  have hSe : S = SL ++ SR := by rw [hSLe, hSRe, List.take_append_drop]
  have hPL : ∀ i ∈ SL, i < v.length := fun i hi => hP i (by rw [hSe]; simp [hi])
  have hPR : ∀ i ∈ SR, i < v.length := fun i hi => hP i (by rw [hSe]; simp [hi])
  have hSL : SL.length = n / 2 := by rw [hSLe, List.length_take]; omega
  have hSR' : SR.length = n - n / 2 := by rw [hSRe, List.length_drop]; omega
  obtain ⟨Wa, hWa, hrunR⟩ := h2 f (A ++ SL) SR B W1 W W2 (by omega) hSR' (by omega) hPR
  have hR := (ref_perm (raw := keyLt o.rawLt v) (keyLt_swo ho.swo v) f SR).1
  obtain ⟨R, hRe⟩ : ∃ R, R = argMs (keyLt o.lt v) (keyLt o.rawLt v) f SR := ⟨_, rfl⟩
  rw [← hRe] at hR hrunR
  obtain ⟨X, Wb, hX, hcase⟩ := h1 f A SL (R ++ B) W1 Wa W2 (by omega) hSL (by omega) hPL
  have hL := (ref_perm (raw := keyLt o.rawLt v) (keyLt_swo ho.swo v) f SL).2
  obtain ⟨L, hLe⟩ : ∃ L, L = (argMsL (keyLt o.lt v) (keyLt o.rawLt v) f SL).1 := ⟨_, rfl⟩
  rw [← hLe] at hL hcase
  have hRlen : R.length = n - n / 2 := by rw [hR.length_eq, hSR']
  have hLlen : L.length = n / 2 := by rw [hL.length_eq, hSL]
  obtain ⟨L0, y, hLy⟩ := exists_last L (by omega)
  obtain ⟨x, R0, hRx⟩ := exists_head R (by omega)
  have hPy : y < v.length := hPL y (hL.mem_iff.1 (by rw [hLy]; simp))
  have hPx : x < v.length := hPR x (hR.mem_iff.1 (by rw [hRx]; simp))
  have hcmp := computes_indirect o.lt v x y hPx hPy
  have hr1 : amergesort0 o v (A ++ (SL ++ SR) ++ B) (W1 ++ W ++ W2) (A.length + n / 2) (A.length + n)
      W1.length = some (A ++ SL ++ R ++ B, W1 ++ Wa ++ W2) := by
    rw [← hrunR]
    congr 1 <;> simp <;> omega
  have hea : A ++ SL ++ R ++ B = A ++ SL ++ (R ++ B) := by simp
  have href : argMs (keyLt o.lt v) (keyLt o.rawLt v) (f + 1) S =
      if (argMsL (keyLt o.lt v) (keyLt o.rawLt v) f SL).2 || keyLt o.lt v x y then mergeL (keyLt o.rawLt v) L R else L ++ R := by
    rw [argMs, if_pos (by omega), ← hSLe, ← hSRe, ← hLe, ← hRe, needs_eq hLy hRx, mergeRef_eq]
  rw [href, hSe]
  rcases hcase with ⟨hWb, hfl, hrunL⟩ | ⟨hWb, hfl, hrunL⟩
  · have hgx : (A ++ L ++ (R ++ B))[A.length + n / 2]? = some x := by
      rw [hRx]
      have e : A ++ L ++ (x :: R0 ++ B) = (A ++ L) ++ x :: (R0 ++ B) := by simp
      rw [e]; exact get_mid (by simp; omega)
    have hgy : (A ++ L ++ (R ++ B))[A.length + n / 2 - 1]? = some y := by
      rw [hLy]
      have e : A ++ (L0 ++ [y]) ++ (R ++ B) = (A ++ L0) ++ y :: (R ++ B) := by simp
      rw [hLy] at hLlen; simp at hLlen
      rw [e]; exact get_mid (by simp; omega)
    rw [hfl]
    cases hb : keyLt o.lt v x y
    · refine ⟨Wb, by omega, ?_⟩
      rw [amergesort0, if_pos (by omega)]
      simp only [hr1, Option.bind_eq_bind, Option.bind_some, hpm, hea, hrunL, Bool.false_eq_true, if_false,
        hgx, hgy, hcmp, hb, Bool.or_self]
      simp
    · obtain ⟨G, W', rfl, hG, hW'⟩ := split_at Wb (n / 2) (by omega)
      have hrun := mergeBack_ok (tr := indirect o.rawLt v) (t := keyLt o.rawLt v) (A := A) (G := L) (R := R)
        (B := B) (W1 := W1) (L := L) (W2 := W' ++ W2)
        (hG := rfl) (ht := fun r hr l hl => computes_indirect o.rawLt v r l (hPR r (hR.mem_iff.1 hr)) (hPL l (hL.mem_iff.1 hl))) (pl := A.length) (pm := A.length + n / 2) (pr := A.length + n)
        (pw := W1.length) (pwEnd := W1.length + (A.length + n / 2 - A.length))
        rfl (by omega) rfl (by omega) (by omega)
      refine ⟨L ++ W', by simp at hWb hW' ⊢; omega, ?_⟩
      have hblit : blit (A ++ L ++ (R ++ B)) A.length (W1 ++ (G ++ W') ++ W2) W1.length
          (A.length + n / 2 - A.length) = some (W1 ++ L ++ (W' ++ W2)) := by
        have := blit_eq (A1 := A) (S := L) (A2 := R ++ B) (B1 := W1) (G := G) (B2 := W' ++ W2) (s := A.length)
          (d := W1.length) (n := A.length + n / 2 - A.length) rfl rfl (by omega) (by omega)
        rw [← this]; congr 1; simp
      rw [amergesort0, if_pos (by omega)]
      simp only [hr1, Option.bind_eq_bind, Option.bind_some, hpm, hea, hrunL, Bool.false_eq_true, if_false,
        hgx, hgy, hcmp, hb, if_true, hblit, Bool.or_true]
      simp only [Option.bind_eq_bind] at hrun
      obtain ⟨m, hm1, hm2⟩ := Option.bind_eq_some_iff.1 hrun
      have ea : A ++ L ++ (R ++ B) = A ++ L ++ R ++ B := by simp
      rw [ea, hm1, Option.bind_some, hm2, Option.bind_some]
      simp
  · have hrun := mergeBack_ok (tr := indirect o.rawLt v) (t := keyLt o.rawLt v) (A := A) (G := X) (R := R)
      (B := B) (W1 := W1) (L := L) (W2 := Wb ++ W2)
      (hG := by omega) (ht := fun r hr l hl => computes_indirect o.rawLt v r l (hPR r (hR.mem_iff.1 hr)) (hPL l (hL.mem_iff.1 hl))) (pl := A.length) (pm := A.length + n / 2) (pr := A.length + n)
      (pw := W1.length) (pwEnd := W1.length + (A.length + n / 2 - A.length))
      rfl (by omega) rfl (by omega) (by omega)
    rw [hfl, Bool.true_or, if_pos rfl]
    refine ⟨L ++ Wb, by simp; omega, ?_⟩
    rw [amergesort0, if_pos (by omega)]
    simp only [hr1, Option.bind_eq_bind, Option.bind_some, hpm, hea, hrunL, if_true]
    simp only [Option.bind_eq_bind] at hrun
    obtain ⟨m, hm1, hm2⟩ := Option.bind_eq_some_iff.1 hrun
    have ea : A ++ X ++ (R ++ B) = A ++ X ++ R ++ B := by simp
    have ew : W1 ++ (L ++ Wb) ++ W2 = W1 ++ L ++ (Wb ++ W2) := by simp
    rw [ea, ew, hm1, Option.bind_some, hm2, Option.bind_some]

/-- The indirect merge sort, whatever the keys. -/
theorem ems_all {o : Ops α} (ho : OpsOk o) (v : List α) (n : Nat) : EMS0 o v n ∧ EMSL o v n := by
  induction n using Nat.strongRecOn with
  | _ n ih =>
    by_cases hn : n > 15
    · have a := ih (n / 2) (by omega)
      have b := ih (n - n / 2) (by omega)
      exact ⟨ems0_step ho v hn a.2 b.1, emsl_step ho v hn a.1 b.1⟩
    · exact ⟨ems0_small ho v hn, emsl_small ho v hn⟩

theorem par_perm {lt raw : Nat → Nat → Bool} (hs : SWO lt) (k : Nat) : ∀ S : List Nat, (argPar lt raw k S).Perm S := by
  induction k with
  | zero => intro S; exact (ref_perm hs _ S).1
  | succ k ih =>
    intro S
    have h := (ih (S.take (S.length / 2))).append (ih (S.drop (S.length / 2)))
    rw [List.take_append_drop] at h
    rw [argPar]
    split
    · rw [mergeRef_eq]; exact (mergeL_perm _ _ _).trans h
    · exact h

end Pnumpy.Sort
