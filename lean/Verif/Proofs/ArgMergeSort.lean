import Verif.Proofs.MergeSort
/-
The indirect merge sort, the string merge sort and the final merge of the parallel sorts.
-/
namespace Pnumpy.Sort
variable {α : Type}

/-- Merge back with a comparison that computes `lt`. -/
theorem finishCmp_ok {cmp : α → α → Option Bool} {lt : α → α → Bool} {P : α → Prop} (hc : Computes cmp lt P)
    (hs : SWO lt) {A G R B W1 L W2 S1 S2 : List α} (hG : G.length = L.length) (hL : SS lt L S1) (hR : SS lt R S2)
    (hP1 : ∀ x ∈ S1, P x) (hP2 : ∀ x ∈ S2, P x)
    {pl pm pr pw pwEnd : Nat} (h1 : pl = A.length) (h2 : pm = A.length + G.length)
    (h3 : pr = A.length + G.length + R.length) (h4 : pw = W1.length) (h5 : pwEnd = W1.length + L.length) :
    ∃ S', SS lt S' (S1 ++ S2) ∧
      (do let m ← mergeToArr cmp (W1 ++ L ++ W2) pwEnd pr (A ++ G ++ R ++ B) pw pm pl
          copyLoop (W1 ++ L ++ W2) pwEnd m.1 m.2.1 m.2.2) = some (A ++ S' ++ B) := by
  refine ⟨mergeL lt L R, SS.of_halves (mergeL_SS hs L R hL.asc hR.asc) hL hR, ?_⟩
  exact mergeBack_ok W1 L W2 A G R B hG
    (fun r hr l hl => hc r l (hP2 r (hR.perm.mem_iff.1 hr)) (hP1 l (hL.perm.mem_iff.1 hl))) h4 h5 h1 h2 h3

/-! ### Indirect -/

/-- Key order on indices. -/
def keyLt [Inhabited α] (lt : α → α → Bool) (v : List α) (i j : Nat) : Bool :=
  lt (v[i]?.getD default) (v[j]?.getD default)

theorem keyLt_swo [Inhabited α] {lt : α → α → Bool} (hs : SWO lt) (v : List α) : SWO (keyLt lt v) :=
  ⟨fun _ _ h => hs.asymm _ _ h, fun _ _ _ h => hs.negTrans _ _ _ h⟩

theorem computes_indirect [Inhabited α] (lt : α → α → Bool) (v : List α) :
    Computes (indirect lt v) (keyLt lt v) (fun i => i < v.length) := by
  intro x y hx hy
  unfold indirect keyLt
  simp [List.getElem?_eq_getElem hx, List.getElem?_eq_getElem hy]

theorem Computes.mono {cmp : α → α → Option Bool} {lt : α → α → Bool} {P Q : α → Prop} (h : Computes cmp lt P)
    (hPQ : ∀ x, Q x → P x) : Computes cmp lt Q := fun x y hx hy => h x y (hPQ x hx) (hPQ y hy)

/-- An index whose key exists and is not NaN. -/
def GoodIx (o : Ops α) (v : List α) (i : Nat) : Prop := ∃ x, v[i]? = some x ∧ o.isNaN x = false

theorem computes_raw [Inhabited α] {o : Ops α} (ho : OpsOk o) (v : List α) :
    Computes (indirect o.rawLt v) (keyLt o.lt v) (GoodIx o v) := by
  intro i j ⟨x, hx, hx'⟩ ⟨y, hy, hy'⟩
  unfold indirect keyLt
  simp [hx, hy, ho.rawLt_iff x y hx' hy']

theorem computes_good [Inhabited α] (o : Ops α) (v : List α) :
    Computes (indirect o.lt v) (keyLt o.lt v) (GoodIx o v) := by
  intro i j ⟨x, hx, _⟩ ⟨y, hy, _⟩
  unfold indirect keyLt
  simp [hx, hy]

section
variable [Inhabited α]

/-- Result of `amergesort0`. -/
def AMS0 (o : Ops α) (v : List α) (n : Nat) : Prop :=
  ∀ (A S B W1 W W2 : List Nat), S.length = n → n / 2 ≤ W.length → (∀ i ∈ S, GoodIx o v i) →
    ∃ S' W', SS (keyLt o.lt v) S' S ∧ W'.length = W.length ∧
      amergesort0 o v (A ++ S ++ B) (W1 ++ W ++ W2) A.length (A.length + n) W1.length =
        some (A ++ S' ++ B, W1 ++ W' ++ W2)

/-- Result of `amergesort0left`. -/
def AMSL (o : Ops α) (v : List α) (n : Nat) : Prop :=
  ∀ (A S B W1 W W2 : List Nat), S.length = n → n ≤ W.length → (∀ i ∈ S, GoodIx o v i) →
    ∃ S' X W' , SS (keyLt o.lt v) S' S ∧ X.length = n ∧
      ((W'.length = W.length ∧
        amergesort0left o v (A ++ S ++ B) (W1 ++ W ++ W2) A.length (A.length + n) W1.length =
        some (A ++ S' ++ B, W1 ++ W' ++ W2, false)) ∨
      (n + W'.length = W.length ∧
        amergesort0left o v (A ++ S ++ B) (W1 ++ W ++ W2) A.length (A.length + n) W1.length =
        some (A ++ X ++ B, W1 ++ (S' ++ W') ++ W2, true)))

theorem ams0_small {o : Ops α} (ho : OpsOk o) (v : List α) {n : Nat} (hn : ¬ n > 15) : AMS0 o v n := by
  intro A S B W1 W W2 hS hW hP
  obtain ⟨S', h1, h2⟩ := insertion_ok (computes_good o v) (keyLt_swo ho.swo v) A S B hP rfl
    (show A.length + n = A.length + S.length by rw [hS])
  refine ⟨S', W, h1, rfl, ?_⟩
  rw [amergesort0, if_neg (by omega), h2]; rfl

theorem amsl_small {o : Ops α} (ho : OpsOk o) (v : List α) {n : Nat} (hn : ¬ n > 15) : AMSL o v n := by
  intro A S B W1 W W2 hS hW hP
  obtain ⟨S', h1, h2⟩ := insertion_ok (computes_good o v) (keyLt_swo ho.swo v) A S B hP rfl
    (show A.length + n = A.length + S.length by rw [hS])
  refine ⟨S', S, W, h1, hS, Or.inl ⟨rfl, ?_⟩⟩
  rw [amergesort0left, if_neg (by omega), h2]; rfl

theorem amsl_step {o : Ops α} (ho : OpsOk o) (v : List α) {n : Nat} (hn : n > 15) (h1 : AMS0 o v (n / 2))
    (h2 : AMS0 o v (n - n / 2)) : AMSL o v n := by
  intro A S B W1 W W2 hS hW hP
  have hpm : A.length + (A.length + n - A.length) / 2 = A.length + n / 2 := by simp
  obtain ⟨SL, SR, rfl, hSL, hSR⟩ := split_at S (n / 2) (by omega)
  have hPL : ∀ i ∈ SL, GoodIx o v i := fun i hi => hP i (by simp [hi])
  have hPR : ∀ i ∈ SR, GoodIx o v i := fun i hi => hP i (by simp [hi])
  have hSR' : SR.length = n - n / 2 := by simp at hS; omega
  obtain ⟨R, Wa, hR, hWa, hrunR⟩ := h2 (A ++ SL) SR B W1 W W2 hSR' (by omega) hPR
  obtain ⟨L, Wb, hL, hWb, hrunL⟩ := h1 A SL (R ++ B) W1 Wa W2 hSL (by omega) hPL
  have hRlen : R.length = n - n / 2 := by rw [hR.perm.length_eq, hSR']
  have hLlen : L.length = n / 2 := by rw [hL.perm.length_eq, hSL]
  have hPL' : ∀ i ∈ L, GoodIx o v i := fun i hi => hPL i (hL.perm.mem_iff.1 hi)
  have hPR' : ∀ i ∈ R, GoodIx o v i := fun i hi => hPR i (hR.perm.mem_iff.1 hi)
  obtain ⟨L0, y, hLy⟩ := exists_last L (by omega)
  obtain ⟨x, R0, hRx⟩ := exists_head R (by omega)
  have hPy : GoodIx o v y := hPL' y (by rw [hLy]; simp)
  have hPx : GoodIx o v x := hPR' x (by rw [hRx]; simp)
  have hr1 : amergesort0 o v (A ++ (SL ++ SR) ++ B) (W1 ++ W ++ W2) (A.length + n / 2) (A.length + n)
      W1.length = some (A ++ SL ++ R ++ B, W1 ++ Wa ++ W2) := by
    rw [← hrunR]
    congr 1 <;> simp <;> omega
  have hr2 : amergesort0 o v (A ++ SL ++ R ++ B) (W1 ++ Wa ++ W2) A.length (A.length + n / 2)
      W1.length = some (A ++ L ++ (R ++ B), W1 ++ Wb ++ W2) := by
    rw [← hrunL]
    congr 1; simp
  have hgx : (A ++ L ++ (R ++ B))[A.length + n / 2]? = some x := by
    rw [hRx]
    have e : A ++ L ++ (x :: R0 ++ B) = (A ++ L) ++ x :: (R0 ++ B) := by simp
    rw [e]; exact get_mid (by simp; omega)
  have hgy : (A ++ L ++ (R ++ B))[A.length + n / 2 - 1]? = some y := by
    rw [hLy]
    have e : A ++ (L0 ++ [y]) ++ (R ++ B) = (A ++ L0) ++ y :: (R ++ B) := by simp
    rw [hLy] at hLlen; simp at hLlen
    rw [e]; exact get_mid (by simp; omega)
  have hcmp := computes_good o v x y hPx hPy
  cases hb : keyLt o.lt v x y
  · refine ⟨L ++ R, SL ++ SR, Wb, border_SS (keyLt_swo ho.swo v) hLy hRx hL hR hb, hS, Or.inl ⟨by omega, ?_⟩⟩
    rw [amergesort0left, if_pos (by omega)]
    simp only [hpm, hr1, hr2, Option.bind_eq_bind, Option.bind_some, hgx, hgy, hcmp, hb, Bool.false_eq_true, if_false]
    simp
  · obtain ⟨G, W', rfl, hG, hW'⟩ := split_at Wb n (by omega)
    have hm := mergeOut_ok (tr := indirect o.lt v) (t := keyLt o.lt v) A L R [] B W1 G (W' ++ W2) (by simp; omega)
      (fun r hr l hl => computes_good o v r l (hPR' r hr) (hPL' l hl))
      (pl := A.length) (pm := A.length + n / 2) (pr := A.length + n)
      (origpr := A.length + n) (pw := W1.length) rfl (by omega) (by omega) (by simp; omega) rfl
    refine ⟨mergeL (keyLt o.lt v) L R, L ++ R, W', ?_, by simp; omega, Or.inr ⟨by omega, ?_⟩⟩
    · exact SS.of_halves (mergeL_SS (keyLt_swo ho.swo v) L R hL.asc hR.asc) hL hR
    · rw [amergesort0left, if_pos (by omega)]
      simp only [hpm, hr1, hr2, Option.bind_eq_bind, Option.bind_some, hgx, hgy, hcmp, hb, if_true]
      have ea : A ++ L ++ (R ++ B) = A ++ L ++ (R ++ []) ++ B := by simp
      have ew : W1 ++ (G ++ W') ++ W2 = W1 ++ G ++ (W' ++ W2) := by simp
      rw [ea, ew]
      simp only [Option.bind_eq_bind] at hm
      obtain ⟨m, hm1, hm2⟩ := Option.bind_eq_some_iff.1 hm
      obtain ⟨w, hm3, hm4⟩ := Option.bind_eq_some_iff.1 hm2
      rw [hm1, Option.bind_some, hm3, Option.bind_some, hm4, Option.bind_some]
      simp

theorem ams0_step {o : Ops α} (ho : OpsOk o) (v : List α) {n : Nat} (hn : n > 15) (h1 : AMSL o v (n / 2))
    (h2 : AMS0 o v (n - n / 2)) : AMS0 o v n := by
  intro A S B W1 W W2 hS hW hP
  have hpm : A.length + (A.length + n - A.length) / 2 = A.length + n / 2 := by simp
  obtain ⟨SL, SR, rfl, hSL, hSR⟩ := split_at S (n / 2) (by omega)
  have hPL : ∀ i ∈ SL, GoodIx o v i := fun i hi => hP i (by simp [hi])
  have hPR : ∀ i ∈ SR, GoodIx o v i := fun i hi => hP i (by simp [hi])
  have hSR' : SR.length = n - n / 2 := by simp at hS; omega
  obtain ⟨R, Wa, hR, hWa, hrunR⟩ := h2 (A ++ SL) SR B W1 W W2 hSR' (by omega) hPR
  obtain ⟨L, X, Wb, hL, hX, hcase⟩ := h1 A SL (R ++ B) W1 Wa W2 hSL (by omega) hPL
  have hRlen : R.length = n - n / 2 := by rw [hR.perm.length_eq, hSR']
  have hLlen : L.length = n / 2 := by rw [hL.perm.length_eq, hSL]
  obtain ⟨L0, y, hLy⟩ := exists_last L (by omega)
  obtain ⟨x, R0, hRx⟩ := exists_head R (by omega)
  have hPy : GoodIx o v y := hPL y (hL.perm.mem_iff.1 (by rw [hLy]; simp))
  have hPx : GoodIx o v x := hPR x (hR.perm.mem_iff.1 (by rw [hRx]; simp))
  have hcmp := computes_good o v x y hPx hPy
  have hr1 : amergesort0 o v (A ++ (SL ++ SR) ++ B) (W1 ++ W ++ W2) (A.length + n / 2) (A.length + n)
      W1.length = some (A ++ SL ++ R ++ B, W1 ++ Wa ++ W2) := by
    rw [← hrunR]
    congr 1 <;> simp <;> omega
  have hea : A ++ SL ++ R ++ B = A ++ SL ++ (R ++ B) := by simp
  rcases hcase with ⟨hWb, hrunL⟩ | ⟨hWb, hrunL⟩
  · have hgx : (A ++ L ++ (R ++ B))[A.length + n / 2]? = some x := by
      rw [hRx]
      have e : A ++ L ++ (x :: R0 ++ B) = (A ++ L) ++ x :: (R0 ++ B) := by simp
      rw [e]; exact get_mid (by simp; omega)
    have hgy : (A ++ L ++ (R ++ B))[A.length + n / 2 - 1]? = some y := by
      rw [hLy]
      have e : A ++ (L0 ++ [y]) ++ (R ++ B) = (A ++ L0) ++ y :: (R ++ B) := by simp
      rw [hLy] at hLlen; simp at hLlen
      rw [e]; exact get_mid (by simp; omega)
    cases hb : keyLt o.lt v x y
    · refine ⟨L ++ R, Wb, border_SS (keyLt_swo ho.swo v) hLy hRx hL hR hb, by omega, ?_⟩
      rw [amergesort0, if_pos (by omega)]
      simp only [hr1, Option.bind_eq_bind, Option.bind_some, hpm, hea, hrunL, Bool.false_eq_true, if_false,
        hgx, hgy, hcmp, hb]
      simp
    · obtain ⟨G, W', rfl, hG, hW'⟩ := split_at Wb (n / 2) (by omega)
      obtain ⟨S', hS', hrun⟩ := finishCmp_ok (computes_raw ho v) (keyLt_swo ho.swo v) (A := A) (G := L) (R := R)
        (B := B) (W1 := W1) (L := L) (W2 := W' ++ W2)
        rfl hL hR hPL hPR (pl := A.length) (pm := A.length + n / 2) (pr := A.length + n)
        (pw := W1.length) (pwEnd := W1.length + (A.length + n / 2 - A.length))
        rfl (by omega) (by omega) rfl (by omega)
      refine ⟨S', L ++ W', hS', by simp at hWb hW' ⊢; omega, ?_⟩
      have hblit : blit (A ++ L ++ (R ++ B)) A.length (W1 ++ (G ++ W') ++ W2) W1.length
          (A.length + n / 2 - A.length) = some (W1 ++ L ++ (W' ++ W2)) := by
        have := blit_eq (A1 := A) (S := L) (A2 := R ++ B) (B1 := W1) (G := G) (B2 := W' ++ W2) (s := A.length)
          (d := W1.length) (n := A.length + n / 2 - A.length) rfl rfl (by omega) (by omega)
        rw [← this]; congr 1; simp
      rw [amergesort0, if_pos (by omega)]
      simp only [hr1, Option.bind_eq_bind, Option.bind_some, hpm, hea, hrunL, Bool.false_eq_true, if_false,
        hgx, hgy, hcmp, hb, if_true, hblit]
      simp only [Option.bind_eq_bind] at hrun
      obtain ⟨m, hm1, hm2⟩ := Option.bind_eq_some_iff.1 hrun
      have ea : A ++ L ++ (R ++ B) = A ++ L ++ R ++ B := by simp
      rw [ea, hm1, Option.bind_some, hm2, Option.bind_some]
      simp
  · obtain ⟨S', hS', hrun⟩ := finishCmp_ok (computes_raw ho v) (keyLt_swo ho.swo v) (A := A) (G := X) (R := R)
      (B := B) (W1 := W1) (L := L) (W2 := Wb ++ W2)
      (by omega) hL hR hPL hPR (pl := A.length) (pm := A.length + n / 2) (pr := A.length + n)
      (pw := W1.length) (pwEnd := W1.length + (A.length + n / 2 - A.length))
      rfl (by omega) (by omega) rfl (by omega)
    refine ⟨S', L ++ Wb, hS', by simp; omega, ?_⟩
    rw [amergesort0, if_pos (by omega)]
    simp only [hr1, Option.bind_eq_bind, Option.bind_some, hpm, hea, hrunL, if_true]
    simp only [Option.bind_eq_bind] at hrun
    obtain ⟨m, hm1, hm2⟩ := Option.bind_eq_some_iff.1 hrun
    have ea : A ++ X ++ (R ++ B) = A ++ X ++ R ++ B := by simp
    have ew : W1 ++ (L ++ Wb) ++ W2 = W1 ++ L ++ (Wb ++ W2) := by simp
    rw [ea, ew, hm1, Option.bind_some, hm2, Option.bind_some]

/-- The indirect merge sort (keys without NaN). -/
theorem ams_all {o : Ops α} (ho : OpsOk o) (v : List α) (n : Nat) : AMS0 o v n ∧ AMSL o v n := by
  induction n using Nat.strongRecOn with
  | _ n ih =>
    by_cases hn : n > 15
    · have a := ih (n / 2) (by omega)
      have b := ih (n - n / 2) (by omega)
      exact ⟨ams0_step ho v hn a.2 b.1, amsl_step ho v hn a.1 b.1⟩
    · exact ⟨ams0_small ho v hn, amsl_small ho v hn⟩

/-- With at most 15 indices the raw comparison is never used: NaN keys are fine. -/
theorem ams0_short {o : Ops α} (ho : OpsOk o) (v : List α) (A S B w : List Nat) (hn : S.length ≤ 15)
    (hP : ∀ i ∈ S, i < v.length) :
    ∃ S', SS (keyLt o.lt v) S' S ∧
      amergesort0 o v (A ++ S ++ B) w A.length (A.length + S.length) 0 = some (A ++ S' ++ B, w) := by
  obtain ⟨S', h1, h2⟩ := insertion_ok (computes_indirect o.lt v) (keyLt_swo ho.swo v) A S B hP rfl
    (show A.length + S.length = A.length + S.length from rfl)
  refine ⟨S', h1, ?_⟩
  rw [amergesort0, if_neg (by omega), h2]; rfl

end

/-! ### Strings -/

/-- The comparison-only merge sort. -/
theorem str_all {cmp : α → α → Option Bool} {lt : α → α → Bool} {P : α → Prop} (hc : Computes cmp lt P)
    (hs : SWO lt) (temp : Bool) (n : Nat) :
    ∀ (A S B W1 W W2 : List α), S.length = n → n / 2 ≤ W.length → (∀ x ∈ S, P x) →
    ∃ S' W', SS lt S' S ∧ W'.length = W.length ∧
      mergesortStr cmp temp (A ++ S ++ B) (W1 ++ W ++ W2) A.length (A.length + n) W1.length =
        some (A ++ S' ++ B, W1 ++ W' ++ W2) := by
  induction n using Nat.strongRecOn with
  | _ n ih =>
    intro A S B W1 W W2 hS hW hP
    by_cases hn : n > 15
    · have hpm : A.length + (A.length + n - A.length) / 2 = A.length + n / 2 := by simp
      obtain ⟨SL, SR, rfl, hSL, hSR⟩ := split_at S (n / 2) (by omega)
      have hPL : ∀ i ∈ SL, P i := fun i hi => hP i (by simp [hi])
      have hPR : ∀ i ∈ SR, P i := fun i hi => hP i (by simp [hi])
      have hSR' : SR.length = n - n / 2 := by simp at hS; omega
      obtain ⟨L, Wa, hL, hWa, hrunL⟩ := ih (n / 2) (by omega) A SL (SR ++ B) W1 W W2 hSL (by omega) hPL
      obtain ⟨R, Wb, hR, hWb, hrunR⟩ := ih (n - n / 2) (by omega) (A ++ L) SR B W1 Wa W2 hSR' (by omega) hPR
      have hRlen : R.length = n - n / 2 := by rw [hR.perm.length_eq, hSR']
      have hLlen : L.length = n / 2 := by rw [hL.perm.length_eq, hSL]
      obtain ⟨L0, y, hLy⟩ := exists_last L (by omega)
      obtain ⟨x, R0, hRx⟩ := exists_head R (by omega)
      have hPy : P y := hPL y (hL.perm.mem_iff.1 (by rw [hLy]; simp))
      have hPx : P x := hPR x (hR.perm.mem_iff.1 (by rw [hRx]; simp))
      have hcmp := hc x y hPx hPy
      have hr1 : mergesortStr cmp temp (A ++ (SL ++ SR) ++ B) (W1 ++ W ++ W2) A.length (A.length + n / 2)
          W1.length = some (A ++ L ++ (SR ++ B), W1 ++ Wa ++ W2) := by
        rw [← hrunL]
        congr 1; simp
      have hr2 : mergesortStr cmp temp (A ++ L ++ (SR ++ B)) (W1 ++ Wa ++ W2) (A.length + n / 2) (A.length + n)
          W1.length = some (A ++ L ++ R ++ B, W1 ++ Wb ++ W2) := by
        rw [← hrunR]
        congr 1 <;> simp <;> omega
      have hgx : (A ++ L ++ R ++ B)[A.length + n / 2]? = some x := by
        rw [hRx]
        have e : A ++ L ++ x :: R0 ++ B = (A ++ L) ++ x :: (R0 ++ B) := by simp
        rw [e]; exact get_mid (by simp; omega)
      have hgy : (A ++ L ++ R ++ B)[A.length + n / 2 - 1]? = some y := by
        rw [hLy]
        have e : A ++ (L0 ++ [y]) ++ R ++ B = (A ++ L0) ++ y :: (R ++ B) := by simp
        rw [hLy] at hLlen; simp at hLlen
        rw [e]; exact get_mid (by simp; omega)
      cases hb : lt x y
      · refine ⟨L ++ R, Wb, border_SS hs hLy hRx hL hR hb, by omega, ?_⟩
        rw [mergesortStr, if_pos (by omega)]
        simp only [hr1, hr2, Option.bind_eq_bind, Option.bind_some, hpm, Bool.false_eq_true, if_false,
          hgx, hgy, hcmp, hb]
        simp
      · obtain ⟨G, W', rfl, hG, hW'⟩ := split_at Wb (n / 2) (by omega)
        obtain ⟨S', hS', hrun⟩ := finishCmp_ok hc hs (A := A) (G := L) (R := R)
          (B := B) (W1 := W1) (L := L) (W2 := W' ++ W2)
          rfl hL hR hPL hPR (pl := A.length) (pm := A.length + n / 2) (pr := A.length + n)
          (pw := W1.length) (pwEnd := W1.length + (A.length + n / 2 - A.length))
          rfl (by omega) (by omega) rfl (by omega)
        refine ⟨S', L ++ W', hS', by simp at hWb hW' ⊢; omega, ?_⟩
        have hblit : blit (A ++ L ++ R ++ B) A.length (W1 ++ (G ++ W') ++ W2) W1.length
            (A.length + n / 2 - A.length) = some (W1 ++ L ++ (W' ++ W2)) := by
          have := blit_eq (A1 := A) (S := L) (A2 := R ++ B) (B1 := W1) (G := G) (B2 := W' ++ W2) (s := A.length)
            (d := W1.length) (n := A.length + n / 2 - A.length) rfl rfl (by omega) (by omega)
          rw [← this]; congr 1 <;> simp
        rw [mergesortStr, if_pos (by omega)]
        simp only [hr1, hr2, Option.bind_eq_bind, Option.bind_some, hpm, if_true,
          hgx, hgy, hcmp, hb, hblit]
        simp only [Option.bind_eq_bind] at hrun
        obtain ⟨m, hm1, hm2⟩ := Option.bind_eq_some_iff.1 hrun
        rw [hm1, Option.bind_some, hm2, Option.bind_some]
        simp
    · obtain ⟨S', h1, h2⟩ := insertion_ok hc hs A S B hP rfl
        (show A.length + n = A.length + S.length by rw [hS])
      refine ⟨S', W, h1, rfl, ?_⟩
      rw [mergesortStr, if_neg (by omega)]
      cases temp
      · simp only [Bool.false_eq_true, if_false, h2]; rfl
      · simp only [if_true]
        rw [if_neg (by intro ⟨ha, hb⟩; apply hb; simp only [List.length_append]; omega), h2]; rfl

/-- ParInPlaceMerge / ParMergeMerge: from two sorted halves to one sorted run. -/
theorem parMerge_ok {cmp : α → α → Option Bool} {lt : α → α → Bool} {P : α → Prop} (hc : Computes cmp lt P)
    (hs : SWO lt) (A L R B W1 W W2 SL SR : List α) (hL : SS lt L SL) (hR : SS lt R SR) (hPL : ∀ x ∈ SL, P x)
    (hPR : ∀ x ∈ SR, P x) {pl len pw : Nat} (h1 : pl = A.length) (h2 : len = L.length + R.length) (h3 : pw = W1.length)
    (hhalf : L.length = len / 2) (hpos : 2 ≤ len) (hW : L.length ≤ W.length) :
    ∃ S' W', SS lt S' (SL ++ SR) ∧ W'.length = W.length ∧
      parMerge cmp (A ++ L ++ R ++ B) (W1 ++ W ++ W2) pl len pw = some (A ++ S' ++ B, W1 ++ W' ++ W2) := by
  subst h1 h3
  obtain ⟨L0, y, hLy⟩ := exists_last L (by omega)
  obtain ⟨x, R0, hRx⟩ := exists_head R (by omega)
  have hPy : P y := hPL y (hL.perm.mem_iff.1 (by rw [hLy]; simp))
  have hPx : P x := hPR x (hR.perm.mem_iff.1 (by rw [hRx]; simp))
  have hcmp := hc x y hPx hPy
  have hgx : (A ++ L ++ R ++ B)[A.length + len / 2]? = some x := by
    rw [hRx]
    have e : A ++ L ++ x :: R0 ++ B = (A ++ L) ++ x :: (R0 ++ B) := by simp
    rw [e]; exact get_mid (by simp; omega)
  have hgy : (A ++ L ++ R ++ B)[A.length + len / 2 - 1]? = some y := by
    rw [hLy]
    have e : A ++ (L0 ++ [y]) ++ R ++ B = (A ++ L0) ++ y :: (R ++ B) := by simp
    rw [hLy] at hhalf; simp at hhalf
    rw [e]; exact get_mid (by simp; omega)
  cases hb : lt x y
  · refine ⟨L ++ R, W, border_SS hs hLy hRx hL hR hb, rfl, ?_⟩
    unfold parMerge
    rw [if_neg (by omega)]
    simp only [Option.bind_eq_bind, Option.bind_some, hgx, hgy, hcmp, hb, Bool.false_eq_true, if_false]
    simp
  · obtain ⟨G, W', rfl, hG, hW'⟩ := split_at W (len / 2) (by omega)
    obtain ⟨S', hS', hrun⟩ := finishCmp_ok hc hs (A := A) (G := L) (R := R)
      (B := B) (W1 := W1) (L := L) (W2 := W' ++ W2)
      rfl hL hR hPL hPR (pl := A.length) (pm := A.length + len / 2) (pr := A.length + len)
      (pw := W1.length) (pwEnd := W1.length + (A.length + len / 2 - A.length))
      rfl (by omega) (by omega) rfl (by omega)
    refine ⟨S', L ++ W', hS', by simp; omega, ?_⟩
    have hblit : blit (A ++ L ++ R ++ B) A.length (W1 ++ (G ++ W') ++ W2) W1.length
        (A.length + len / 2 - A.length) = some (W1 ++ L ++ (W' ++ W2)) := by
      have := blit_eq (A1 := A) (S := L) (A2 := R ++ B) (B1 := W1) (G := G) (B2 := W' ++ W2) (s := A.length)
        (d := W1.length) (n := A.length + len / 2 - A.length) rfl rfl (by omega) (by omega)
      rw [← this]; congr 1 <;> simp
    unfold parMerge
    rw [if_neg (by omega)]
    simp only [Option.bind_eq_bind, Option.bind_some, hgx, hgy, hcmp, hb, if_true, hblit]
    simp only [Option.bind_eq_bind] at hrun
    obtain ⟨m, hm1, hm2⟩ := Option.bind_eq_some_iff.1 hrun
    rw [hm1, Option.bind_some, hm2, Option.bind_some]
    simp

end Pnumpy.Sort
