import Verif.Proofs.SortMem
/-
The merge sorts sort, stay inside their memory and return.
-/
namespace Pnumpy.Sort
variable {α : Type}

/-- What the element type has to satisfy: `COMPARE_LT` is a strict weak order that puts NaNs last, and the
raw `<=`/`<` agree with it where no NaN is involved. -/
structure OpsOk (o : Ops α) : Prop where
  swo : SWO o.lt
  nan_last : ∀ x y, o.isNaN x = false → o.isNaN y = true → o.lt x y = true
  nan_max : ∀ x y, o.isNaN x = true → o.lt x y = false
  le_iff : ∀ l r, o.isNaN r = false → o.le l r = !o.lt r l
  rawLt_iff : ∀ x y, o.isNaN x = false → o.isNaN y = false → o.rawLt x y = o.lt x y

/-- The merge with the trailing NaNs of the right run set aside. -/
theorem nanMerge_SS {o : Ops α} (ho : OpsOk o) {L R N : List α} (hL : Asc o.lt L) (hR : Asc o.lt (R ++ N))
    (hN : ∀ x ∈ N, o.isNaN x = true) : SS o.lt (mergeL o.lt L R ++ N) (L ++ (R ++ N)) := by
  have hR' := List.pairwise_append.1 hR
  have h := mergeL_SS ho.swo L R hL hR'.1
  refine ⟨?_, ?_, ?_⟩
  · rw [← List.append_assoc]; exact h.perm.append_right N
  · refine List.pairwise_append.2 ⟨h.asc, hR'.2.1, fun a _ b hb => ho.nan_max b a (hN b hb)⟩
  · intro c
    rw [List.filter_append, h.stable c, ← List.append_assoc, List.filter_append (l₂ := N)]

/-- In an ascending run whose last element is a number, all are numbers. -/
theorem nonNaN_of_last {o : Ops α} (ho : OpsOk o) {R : List α} (hR : Asc o.lt R)
    (hl : ∀ x, R.getLast? = some x → o.isNaN x = false) : ∀ x ∈ R, o.isNaN x = false := by
  rcases List.eq_nil_or_concat R with rfl | ⟨S, z, rfl⟩
  · simp
  · rw [List.concat_eq_append] at hR hl ⊢
    have hz := hl z (by simp)
    intro x hx
    rcases List.mem_append.1 hx with hx | hx
    · cases hn : o.isNaN x
      · rfl
      · have := (List.pairwise_append.1 hR).2.2 x hx z (by simp)
        rw [ho.nan_last z x hz hn] at this
        exact absurd this (by decide)
    · rw [List.mem_singleton.1 hx]; exact hz

/-- Split a list at a position. -/
theorem split_at (l : List α) (n : Nat) (h : n ≤ l.length) : ∃ l1 l2, l = l1 ++ l2 ∧ l1.length = n ∧ l2.length = l.length - n :=
  ⟨l.take n, l.drop n, by simp, by simp; omega, by simp⟩

/-- Stay in place if the border of the two runs is in order. -/
theorem border_SS {lt : α → α → Bool} (hs : SWO lt) {L R S1 S2 : List α} {x y : α} {L0 R0 : List α}
    (hL : L = L0 ++ [y]) (hR : R = x :: R0) (h1 : SS lt L S1) (h2 : SS lt R S2) (hxy : lt x y = false) :
    SS lt (L ++ R) (S1 ++ S2) := by
  have hasc : Asc lt (L ++ R) := by
    rw [hL, hR]
    exact asc_append hs (hL ▸ h1.asc) (hR ▸ h2.asc) hxy
  exact SS.of_halves (SS.refl hasc) h1 h2

theorem exists_last (l : List α) (h : 0 < l.length) : ∃ l0 y, l = l0 ++ [y] := by
  rcases List.eq_nil_or_concat l with rfl | ⟨l0, y, rfl⟩
  · simp at h
  · exact ⟨l0, y, by simp⟩

theorem exists_head (l : List α) (h : 0 < l.length) : ∃ x l0, l = x :: l0 := by
  rcases l with _ | ⟨x, l0⟩
  · simp at h
  · exact ⟨x, l0, rfl⟩

theorem computes_direct (lt : α → α → Bool) : Computes (direct lt) lt (fun _ => True) := fun _ _ _ _ => rfl

/-- Result of `mergesort0`. -/
def MS0 (o : Ops α) (n : Nat) : Prop :=
  ∀ (A S B W1 W W2 : List α), S.length = n → n / 2 ≤ W.length →
    ∃ S' W', SS o.lt S' S ∧ W'.length = W.length ∧
      mergesort0 o (A ++ S ++ B) (W1 ++ W ++ W2) A.length (A.length + n) W1.length =
        some (A ++ S' ++ B, W1 ++ W' ++ W2)

/-- Result of `mergesort0left`. -/
def MSL (o : Ops α) (n : Nat) : Prop :=
  ∀ (A S B W1 W W2 : List α), S.length = n → n ≤ W.length →
    ∃ S' X W' , SS o.lt S' S ∧ X.length = n ∧
      ((W'.length = W.length ∧
        mergesort0left o (A ++ S ++ B) (W1 ++ W ++ W2) A.length (A.length + n) W1.length =
        some (A ++ S' ++ B, W1 ++ W' ++ W2, false)) ∨
      (n + W'.length = W.length ∧
        mergesort0left o (A ++ S ++ B) (W1 ++ W ++ W2) A.length (A.length + n) W1.length =
        some (A ++ X ++ B, W1 ++ (S' ++ W') ++ W2, true)))

/-- Common part: FIND_NANS, then merge back with the left run in the workspace. -/
theorem finish_ok {o : Ops α} (ho : OpsOk o) {A G R B W1 L W2 S1 S2 : List α} {x y : α} (hG : G.length = L.length)
    (hL : SS o.lt L S1) (hR : SS o.lt R S2) (hx : R.head? = some x) (hxy : o.lt x y = true)
    {pl pm pr pw pwEnd : Nat} (h1 : pl = A.length) (h2 : pm = A.length + G.length)
    (h3 : pr = A.length + G.length + R.length) (h4 : pw = W1.length) (h5 : pwEnd = W1.length + L.length) :
    ∃ S', SS o.lt S' (S1 ++ S2) ∧
      (do let pr ← findNans o.isNaN (A ++ G ++ R ++ B) pm pr
          let m ← mergeToArr (fun r l => some (!o.le l r)) (W1 ++ L ++ W2) pwEnd pr (A ++ G ++ R ++ B) pw pm pl
          copyLoop (W1 ++ L ++ W2) pwEnd m.1 m.2.1 m.2.2) = some (A ++ S' ++ B) := by
  have hRne : R ≠ [] := by intro h; rw [h] at hx; simp at hx
  have hhead : ∀ z, R.head? = some z → o.isNaN z = false := by
    intro z hz
    rw [hx] at hz; injection hz with hz; subst hz
    cases hn : o.isNaN x
    · rfl
    · rw [ho.nan_max x y hn] at hxy; exact absurd hxy (by decide)
  obtain ⟨R', N', e1, e2, e3, _, e5⟩ := findNans_ok o.isNaN (A ++ G) B _ R [] rfl hRne hhead
  have hRasc := hR.asc
  rw [e1] at hRasc
  have hnn := nonNaN_of_last ho (List.pairwise_append.1 hRasc).1 e3
  refine ⟨mergeL o.lt L R' ++ N', ?_, ?_⟩
  · refine SS.of_halves (L' := L) (R' := R) ?_ hL hR
    rw [e1]
    exact nanMerge_SS ho hL.asc hRasc e2
  · subst h1 h2 h3 h4 h5
    have e5' : findNans o.isNaN (A ++ G ++ R ++ B) (A.length + G.length) (A.length + G.length + R.length) =
        some (A.length + G.length + R'.length) := by
      have := e5
      simp only [List.append_nil, List.length_append] at this
      exact this
    have hm := mergeBack_ok (tr := fun r l => some (!o.le l r)) (t := o.lt) W1 L W2 A G R' (N' ++ B) hG
      (fun r hr l _ => by rw [ho.le_iff l r (hnn r hr)]; simp) rfl rfl rfl rfl
      (rfl : A.length + G.length + R'.length = _)
    simp only [e5', Option.bind_eq_bind, Option.bind_some]
    have ea : A ++ G ++ R ++ B = A ++ G ++ R' ++ (N' ++ B) := by rw [e1]; simp
    have eb : A ++ (mergeL o.lt L R' ++ N') ++ B = A ++ mergeL o.lt L R' ++ (N' ++ B) := by simp
    rw [ea, eb]
    simpa only [Option.bind_eq_bind] using hm

theorem ms0_small {o : Ops α} (ho : OpsOk o) {n : Nat} (hn : ¬ n > 15) : MS0 o n := by
  intro A S B W1 W W2 hS hW
  obtain ⟨S', h1, h2⟩ := insertion_ok (computes_direct o.lt) ho.swo A S B (fun _ _ => trivial) rfl
    (show A.length + n = A.length + S.length by rw [hS])
  refine ⟨S', W, h1, rfl, ?_⟩
  rw [mergesort0, if_neg (by omega), h2]; rfl

theorem msl_small {o : Ops α} (ho : OpsOk o) {n : Nat} (hn : ¬ n > 15) : MSL o n := by
  intro A S B W1 W W2 hS hW
  obtain ⟨S', h1, h2⟩ := insertion_ok (computes_direct o.lt) ho.swo A S B (fun _ _ => trivial) rfl
    (show A.length + n = A.length + S.length by rw [hS])
  refine ⟨S', S, W, h1, hS, Or.inl ⟨rfl, ?_⟩⟩
  rw [mergesort0left, if_neg (by omega), h2]; rfl

theorem msl_step {o : Ops α} (ho : OpsOk o) {n : Nat} (hn : n > 15) (h1 : MS0 o (n / 2)) (h2 : MS0 o (n - n / 2)) :
    MSL o n := by
  intro A S B W1 W W2 hS hW
  have hpm : A.length + (A.length + n - A.length) / 2 = A.length + n / 2 := by simp
  obtain ⟨SL, SR, rfl, hSL, hSR⟩ := split_at S (n / 2) (by omega)
  have hSR' : SR.length = n - n / 2 := by simp at hS; omega
  obtain ⟨R, Wa, hR, hWa, hrunR⟩ := h2 (A ++ SL) SR B W1 W W2 hSR' (by omega)
  obtain ⟨L, Wb, hL, hWb, hrunL⟩ := h1 A SL (R ++ B) W1 Wa W2 hSL (by omega)
  have hRlen : R.length = n - n / 2 := by rw [hR.perm.length_eq, hSR']
  have hLlen : L.length = n / 2 := by rw [hL.perm.length_eq, hSL]
  obtain ⟨L0, y, hLy⟩ := exists_last L (by omega)
  obtain ⟨x, R0, hRx⟩ := exists_head R (by omega)
  have hr1 : mergesort0 o (A ++ (SL ++ SR) ++ B) (W1 ++ W ++ W2) (A.length + n / 2) (A.length + n)
      W1.length = some (A ++ SL ++ R ++ B, W1 ++ Wa ++ W2) := by
    rw [← hrunR]
    congr 1 <;> simp <;> omega
  have hr2 : mergesort0 o (A ++ SL ++ R ++ B) (W1 ++ Wa ++ W2) A.length (A.length + n / 2)
      W1.length = some (A ++ L ++ (R ++ B), W1 ++ Wb ++ W2) := by
    rw [← hrunL]
    congr 1 <;> simp
  have hgx : (A ++ L ++ (R ++ B))[A.length + n / 2]? = some x := by
    rw [hRx]
    have e : A ++ L ++ (x :: R0 ++ B) = (A ++ L) ++ x :: (R0 ++ B) := by simp
    rw [e]; exact get_mid (by simp; omega)
  have hgy : (A ++ L ++ (R ++ B))[A.length + n / 2 - 1]? = some y := by
    rw [hLy]
    have e : A ++ (L0 ++ [y]) ++ (R ++ B) = (A ++ L0) ++ y :: (R ++ B) := by simp
    rw [hLy] at hLlen; simp at hLlen
    rw [e]; exact get_mid (by simp; omega)
  cases hb : o.lt x y
  · refine ⟨L ++ R, SL ++ SR, Wb, border_SS ho.swo hLy hRx hL hR hb, hS, Or.inl ⟨by omega, ?_⟩⟩
    rw [mergesort0left, if_pos (by omega)]
    simp only [hpm, hr1, hr2, Option.bind_eq_bind, Option.bind_some, hgx, hgy, hb, Bool.false_eq_true, if_false]
    simp
  · have hRne : R ≠ [] := by rw [hRx]; simp
    have hhead : ∀ z, R.head? = some z → o.isNaN z = false := by
      intro z hz
      rw [hRx] at hz; simp at hz; subst hz
      cases hn' : o.isNaN x
      · rfl
      · rw [ho.nan_max x y hn'] at hb; exact absurd hb (by decide)
    obtain ⟨R', N', e1, e2, e3, _, e5⟩ := findNans_ok o.isNaN (A ++ L) B _ R [] rfl hRne hhead
    have hRasc := hR.asc
    rw [e1] at hRasc
    have hnn := nonNaN_of_last ho (List.pairwise_append.1 hRasc).1 e3
    have hlen : R.length = R'.length + N'.length := by rw [e1]; simp
    obtain ⟨G, W', rfl, hG, hW'⟩ := split_at Wb n (by omega)
    have hm := mergeOut_ok (tr := fun r l => some (!o.le l r)) (t := o.lt) A L R' N' B W1 G (W' ++ W2) (by omega)
      (fun r hr l _ => by rw [ho.le_iff l r (hnn r hr)]; simp)
      (pl := A.length) (pm := A.length + n / 2) (pr := A.length + L.length + R'.length)
      (origpr := A.length + n) (pw := W1.length) rfl (by omega) rfl (by omega) rfl
    refine ⟨mergeL o.lt L R' ++ N', L ++ R, W', ?_, by simp; omega, Or.inr ⟨by omega, ?_⟩⟩
    · refine SS.of_halves (L' := L) (R' := R) ?_ hL hR
      rw [e1]; exact nanMerge_SS ho hL.asc hRasc e2
    · have hfn : findNans o.isNaN (A ++ L ++ (R ++ B)) (A.length + n / 2) (A.length + n) =
          some (A.length + L.length + R'.length) := by
        have h := e5
        simp only [List.append_nil, List.length_append] at h
        rw [← h]
        congr 1
        · simp
        · omega
        · omega
      rw [mergesort0left, if_pos (by omega)]
      simp only [hpm, hr1, hr2, Option.bind_eq_bind, Option.bind_some, hgx, hgy, hb, if_true, hfn]
      have ea : A ++ L ++ (R ++ B) = A ++ L ++ (R' ++ N') ++ B := by rw [e1]; simp
      have ew : W1 ++ (G ++ W') ++ W2 = W1 ++ G ++ (W' ++ W2) := by simp
      rw [ea, ew]
      simp only [Option.bind_eq_bind] at hm
      -- the model returns after the two copies
      obtain ⟨m, hm1, hm2⟩ := Option.bind_eq_some_iff.1 hm
      obtain ⟨w, hm3, hm4⟩ := Option.bind_eq_some_iff.1 hm2
      rw [hm1, Option.bind_some, hm3, Option.bind_some, hm4, Option.bind_some]
      rw [e1]; simp

theorem ms0_step {o : Ops α} (ho : OpsOk o) {n : Nat} (hn : n > 15) (h1 : MSL o (n / 2)) (h2 : MS0 o (n - n / 2)) :
    MS0 o n := by
  intro A S B W1 W W2 hS hW
  have hpm : A.length + (A.length + n - A.length) / 2 = A.length + n / 2 := by simp
  obtain ⟨SL, SR, rfl, hSL, hSR⟩ := split_at S (n / 2) (by omega)
  have hSR' : SR.length = n - n / 2 := by simp at hS; omega
  obtain ⟨R, Wa, hR, hWa, hrunR⟩ := h2 (A ++ SL) SR B W1 W W2 hSR' (by omega)
  obtain ⟨L, X, Wb, hL, hX, hcase⟩ := h1 A SL (R ++ B) W1 Wa W2 hSL (by omega)
  have hRlen : R.length = n - n / 2 := by rw [hR.perm.length_eq, hSR']
  have hLlen : L.length = n / 2 := by rw [hL.perm.length_eq, hSL]
  obtain ⟨L0, y, hLy⟩ := exists_last L (by omega)
  obtain ⟨x, R0, hRx⟩ := exists_head R (by omega)
  have hr1 : mergesort0 o (A ++ (SL ++ SR) ++ B) (W1 ++ W ++ W2) (A.length + n / 2) (A.length + n)
      W1.length = some (A ++ SL ++ R ++ B, W1 ++ Wa ++ W2) := by
    rw [← hrunR]
    congr 1 <;> simp <;> omega
  have hgx : ∀ Z : List α, Z.length = n / 2 → (A ++ Z ++ (R ++ B))[A.length + n / 2]? = some x := by
    intro Z hZ
    rw [hRx]
    have e : A ++ Z ++ (x :: R0 ++ B) = (A ++ Z) ++ x :: (R0 ++ B) := by simp
    rw [e]; exact get_mid (by simp; omega)
  have hR0 : R.head? = some x := by rw [hRx]; rfl
  have hea : A ++ SL ++ R ++ B = A ++ SL ++ (R ++ B) := by simp
  rcases hcase with ⟨hWb, hrunL⟩ | ⟨hWb, hrunL⟩
  · -- left half sorted in place
    have hgy : (A ++ L ++ (R ++ B))[A.length + n / 2 - 1]? = some y := by
      rw [hLy]
      have e : A ++ (L0 ++ [y]) ++ (R ++ B) = (A ++ L0) ++ y :: (R ++ B) := by simp
      rw [hLy] at hLlen; simp at hLlen
      rw [e]; exact get_mid (by simp; omega)
    cases hb : o.lt x y
    · refine ⟨L ++ R, Wb, border_SS ho.swo hLy hRx hL hR hb, by omega, ?_⟩
      rw [mergesort0, if_pos (by omega)]
      simp only [hr1, Option.bind_eq_bind, Option.bind_some, hpm, hea, hrunL, Bool.false_eq_true, if_false]
      simp only [hgx L hLlen, hgy, Option.bind_some, hb, Bool.false_eq_true, if_false]
      simp
    · obtain ⟨G, W', rfl, hG, hW'⟩ := split_at Wb (n / 2) (by omega)
      obtain ⟨S', hS', hrun⟩ := finish_ok ho (A := A) (G := L) (R := R) (B := B) (W1 := W1) (L := L) (W2 := W' ++ W2)
        rfl hL hR hR0 hb (pl := A.length) (pm := A.length + n / 2) (pr := A.length + n)
        (pw := W1.length) (pwEnd := W1.length + (A.length + n / 2 - A.length))
        rfl (by omega) (by omega) rfl (by omega)
      refine ⟨S', L ++ W', hS', by simp at hWb hW' ⊢; omega, ?_⟩
      have hblit : blit (A ++ L ++ (R ++ B)) A.length (W1 ++ (G ++ W') ++ W2) W1.length
          (A.length + n / 2 - A.length) = some (W1 ++ L ++ (W' ++ W2)) := by
        have := blit_eq (A1 := A) (S := L) (A2 := R ++ B) (B1 := W1) (G := G) (B2 := W' ++ W2) (s := A.length)
          (d := W1.length) (n := A.length + n / 2 - A.length) rfl rfl (by omega) (by omega)
        rw [← this]; congr 1; simp
      rw [mergesort0, if_pos (by omega)]
      simp only [hr1, Option.bind_eq_bind, Option.bind_some, hpm, hea, hrunL, Bool.false_eq_true, if_false]
      simp only [hgx L hLlen, hgy, Option.bind_some, hb, if_true, hblit]
      simp only [Option.bind_eq_bind] at hrun
      obtain ⟨p, hp1, hp2⟩ := Option.bind_eq_some_iff.1 hrun
      obtain ⟨m, hm1, hm2⟩ := Option.bind_eq_some_iff.1 hp2
      have ea : A ++ L ++ (R ++ B) = A ++ L ++ R ++ B := by simp
      rw [ea, hp1, Option.bind_some, hm1, Option.bind_some, hm2, Option.bind_some]
      simp
  · -- left half sorted into the workspace
    have hgy : (W1 ++ (L ++ Wb) ++ W2)[W1.length + (A.length + n / 2 - A.length) - 1]? = some y := by
      rw [hLy]
      have e : W1 ++ (L0 ++ [y] ++ Wb) ++ W2 = (W1 ++ L0) ++ y :: (Wb ++ W2) := by simp
      rw [hLy] at hLlen; simp at hLlen
      rw [e]; exact get_mid (by simp; omega)
    have hgx' := hgx X hX
    cases hb : o.lt x y
    · refine ⟨L ++ R, L ++ Wb, border_SS ho.swo hLy hRx hL hR hb, by simp; omega, ?_⟩
      have hblit : blit (W1 ++ (L ++ Wb) ++ W2) W1.length (A ++ X ++ (R ++ B)) A.length
          (A.length + n / 2 - A.length) = some (A ++ L ++ (R ++ B)) := by
        have := blit_eq (A1 := W1) (S := L) (A2 := Wb ++ W2) (B1 := A) (G := X) (B2 := R ++ B) (s := W1.length)
          (d := A.length) (n := A.length + n / 2 - A.length) rfl rfl (by omega) (by omega)
        rw [← this]; congr 1; simp
      rw [mergesort0, if_pos (by omega)]
      simp only [hr1, Option.bind_eq_bind, Option.bind_some, hpm, hea, hrunL, if_true, hgx', hgy, hb,
        Bool.false_eq_true, if_false, hblit]
      simp
    · obtain ⟨S', hS', hrun⟩ := finish_ok ho (A := A) (G := X) (R := R) (B := B) (W1 := W1) (L := L) (W2 := Wb ++ W2)
        (by omega) hL hR hR0 hb (pl := A.length) (pm := A.length + n / 2) (pr := A.length + n)
        (pw := W1.length) (pwEnd := W1.length + (A.length + n / 2 - A.length))
        rfl (by omega) (by omega) rfl (by omega)
      refine ⟨S', L ++ Wb, hS', by simp; omega, ?_⟩
      rw [mergesort0, if_pos (by omega)]
      simp only [hr1, Option.bind_eq_bind, Option.bind_some, hpm, hea, hrunL, if_true, hgx', hgy, hb]
      simp only [Option.bind_eq_bind] at hrun
      obtain ⟨p, hp1, hp2⟩ := Option.bind_eq_some_iff.1 hrun
      obtain ⟨m, hm1, hm2⟩ := Option.bind_eq_some_iff.1 hp2
      have ea : A ++ X ++ (R ++ B) = A ++ X ++ R ++ B := by simp
      have ew : W1 ++ (L ++ Wb) ++ W2 = W1 ++ L ++ (Wb ++ W2) := by simp
      rw [ea, ew, hp1, Option.bind_some, hm1, Option.bind_some, hm2, Option.bind_some]

/-- mergesort0_ / mergesort0left_: they return, touch nothing but their segments, and sort stably. -/
theorem ms_all {o : Ops α} (ho : OpsOk o) (n : Nat) : MS0 o n ∧ MSL o n := by
  induction n using Nat.strongRecOn with
  | _ n ih =>
    by_cases hn : n > 15
    · have a := ih (n / 2) (by omega)
      have b := ih (n - n / 2) (by omega)
      exact ⟨ms0_step ho hn a.2 b.1, msl_step ho hn a.1 b.1⟩
    · exact ⟨ms0_small ho hn, msl_small ho hn⟩

/-- mergesort_ with its workspace of `length / 2` elements. -/
theorem mergesort_ok {o : Ops α} (ho : OpsOk o) (A S B w : List α) (hw : w.length = S.length / 2) :
    ∃ S', SS o.lt S' S ∧ mergesort o (A ++ S ++ B) A.length S.length w = some (A ++ S' ++ B) := by
  obtain ⟨S', W', h1, _, h3⟩ := (ms_all ho S.length).1 A S B [] w [] rfl (by omega)
  refine ⟨S', h1, ?_⟩
  simp only [List.nil_append, List.append_nil, List.length_nil] at h3
  simp only [mergesort, h3, Option.bind_eq_bind, Option.bind_some]

end Pnumpy.Sort
