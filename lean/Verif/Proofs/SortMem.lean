import Verif.Proofs.SortList
/-
The loops of the merge sorts, on memory.
-/
namespace Pnumpy.Sort
variable {α : Type}

/-! ### Memory access -/

theorem get_mid {A : List α} {x : α} {B : List α} {n : Nat} (h : n = A.length) : (A ++ x :: B)[n]? = some x := by
  subst h; simp

theorem put_mid {A : List α} {x : α} {B : List α} {n : Nat} (y : α) (h : n = A.length) :
    put (A ++ x :: B) n y = some (A ++ y :: B) := by
  subst h; unfold put; rw [if_pos (by simp)]; simp

theorem put_length {m m' : List α} {i : Nat} {x : α} (h : put m i x = some m') : m'.length = m.length := by
  unfold put at h
  split at h
  · injection h with h; rw [← h, List.length_set]
  · exact absurd h (by simp)

theorem blit_eq {A1 S A2 B1 G B2 : List α} {s d n : Nat} (hs : s = A1.length) (hd : d = B1.length)
    (hn : n = S.length) (hg : n = G.length) :
    blit (A1 ++ S ++ A2) s (B1 ++ G ++ B2) d n = some (B1 ++ S ++ B2) := by
  unfold blit
  rw [if_pos (by simp; omega)]
  subst hs hd
  have h1 : (B1 ++ G ++ B2).take B1.length = B1 := by simp
  have h2 : ((A1 ++ S ++ A2).drop A1.length).take n = S := by
    rw [List.append_assoc, List.drop_left, hn, List.take_left]
  have h3 : (B1 ++ G ++ B2).drop (B1.length + n) = B2 := by
    rw [hg, ← List.length_append, List.drop_left]
  rw [h1, h2, h3]

theorem swap_eq {A B C : List α} {x y : α} {i j : Nat} (hi : i = A.length) (hj : j = A.length + 1 + B.length) :
    swap (A ++ x :: B ++ y :: C) i j = some (A ++ y :: B ++ x :: C) := by
  unfold swap
  have e1 : A ++ x :: B ++ y :: C = A ++ x :: (B ++ y :: C) := by simp
  have e2 : A ++ y :: B ++ y :: C = A ++ y :: (B ++ y :: C) := by simp
  have g1 : (A ++ x :: B ++ y :: C)[i]? = some x := by rw [e1]; exact get_mid hi
  have g2 : (A ++ x :: B ++ y :: C)[j]? = some y := get_mid (by simp; omega)
  have p1 : put (A ++ x :: B ++ y :: C) i y = some (A ++ y :: B ++ y :: C) := by
    rw [e1, e2]; exact put_mid y hi
  have p2 : put (A ++ y :: B ++ y :: C) j x = some (A ++ y :: B ++ x :: C) := put_mid x (by simp; omega)
  simp only [g1, g2, p1, p2, Option.bind_eq_bind, Option.bind_some]

/-! ### Insertion sort -/

/-- The comparison routine computes `lt` for the elements concerned. -/
def Computes (cmp : α → α → Option Bool) (lt : α → α → Bool) (P : α → Prop) : Prop :=
  ∀ x y, P x → P y → cmp x y = some (lt x y)

theorem shiftLoop_ok {cmp : α → α → Option Bool} {lt : α → α → Bool} {P : α → Prop} (hc : Computes cmp lt P)
    {vp : α} (hvp : P vp) (A : List α) (n : Nat) :
    ∀ (S : List α) (h : α) (B : List α), S.length = n → (∀ x ∈ S, P x) →
    ∃ S1 S2 h', S = S1 ++ S2 ∧ (∀ y ∈ S2, lt vp y = true) ∧ (∀ y, S1.getLast? = some y → lt vp y = false) ∧
      shiftLoop cmp vp A.length (A ++ S ++ h :: B) (A.length + S.length) =
        some (A ++ S1 ++ h' :: (S2 ++ B), A.length + S1.length) := by
  induction n with
  | zero =>
    intro S h B hn _
    have hS : S = [] := List.length_eq_zero_iff.1 hn
    subst hS
    refine ⟨[], [], h, rfl, by simp, by simp, ?_⟩
    rw [shiftLoop, if_neg (by simp)]
    simp
  | succ n ih =>
    intro S h B hn hP
    obtain ⟨S', y, rfl⟩ : ∃ S' y, S = S' ++ [y] := by
      rcases List.eq_nil_or_concat S with h | ⟨S', y, h⟩
      · subst h; simp at hn
      · exact ⟨S', y, by simpa using h⟩
    have hn' : S'.length = n := by simpa using hn
    have hy : P y := hP y (by simp)
    have e1 : A ++ (S' ++ [y]) ++ h :: B = (A ++ S') ++ y :: (h :: B) := by simp
    have hget : (A ++ (S' ++ [y]) ++ h :: B)[A.length + (S' ++ [y]).length - 1]? = some y := by
      rw [e1]; exact get_mid (by simp)
    rw [shiftLoop, if_pos (by simp)]
    simp only [hget, Option.bind_eq_bind, Option.bind_some, hc vp y hvp hy]
    cases hlt : lt vp y
    · refine ⟨S' ++ [y], [], h, by simp, by simp, ?_, by simp⟩
      intro z hz
      simp at hz
      rw [← hz]; exact hlt
    · have hput : put (A ++ (S' ++ [y]) ++ h :: B) (A.length + (S' ++ [y]).length) y =
          some (A ++ S' ++ y :: (y :: B)) := by
        rw [put_mid y (by simp)]; simp
      simp only [hput, Option.bind_some, if_true]
      have e2 : A.length + (S' ++ [y]).length - 1 = A.length + S'.length := by simp
      rw [e2]
      obtain ⟨S1, S2, h', hS, hS2, hS1, hrun⟩ := ih S' y (y :: B) hn' (fun x hx => hP x (by simp [hx]))
      refine ⟨S1, S2 ++ [y], h', by rw [hS]; simp, ?_, hS1, ?_⟩
      · intro z hz
        rcases List.mem_append.1 hz with hz | hz
        · exact hS2 z hz
        · rw [List.mem_singleton.1 hz]; exact hlt
      · rw [hrun]; simp

theorem asc_last {lt : α → α → Bool} (hs : SWO lt) {S : List α} {v : α} (h : Asc lt S)
    (hl : ∀ y, S.getLast? = some y → lt v y = false) : ∀ y ∈ S, lt v y = false := by
  rcases List.eq_nil_or_concat S with rfl | ⟨S', z, rfl⟩
  · simp
  · have hz := hl z (by simp)
    intro y hy
    rw [List.concat_eq_append] at hy h
    rcases List.mem_append.1 hy with hy | hy
    · exact hs.geTrans ((List.pairwise_append.1 h).2.2 y hy z (by simp)) hz
    · rw [List.mem_singleton.1 hy]; exact hz

theorem insertLoop_ok {cmp : α → α → Option Bool} {lt : α → α → Bool} {P : α → Prop} (hc : Computes cmp lt P)
    (hs : SWO lt) (A : List α) (T : List α) :
    ∀ (D S B : List α), (∀ x ∈ S, P x) → (∀ x ∈ T, P x) → Asc lt S → SS lt S D →
    ∃ S', SS lt S' (D ++ T) ∧
      insertLoop cmp A.length (A.length + S.length + T.length) (A ++ S ++ T ++ B) (A.length + S.length) =
        some (A ++ S' ++ B) := by
  induction T with
  | nil =>
    intro D S B _ _ _ hSD
    refine ⟨S, by simpa using hSD, ?_⟩
    rw [insertLoop, if_neg (by simp)]
    simp
  | cons t T ih =>
    intro D S B hPS hPT hS hSD
    have hPt : P t := hPT t (by simp)
    have e1 : A ++ S ++ t :: T ++ B = (A ++ S) ++ t :: (T ++ B) := by simp
    have hget : (A ++ S ++ t :: T ++ B)[A.length + S.length]? = some t := by
      rw [e1]; exact get_mid (by simp)
    rw [insertLoop, if_pos (by simp)]
    obtain ⟨S1, S2, h', hS12, hS2, hS1, hrun⟩ := shiftLoop_ok hc hPt A S.length S t (T ++ B) rfl hPS
    have hrun' : shiftLoop cmp t A.length (A ++ S ++ t :: T ++ B) (A.length + S.length) =
        some (A ++ S1 ++ h' :: (S2 ++ (T ++ B)), A.length + S1.length) := by rw [e1]; exact hrun
    simp only [hget, Option.bind_eq_bind, Option.bind_some, hrun']
    rw [put_mid t (by simp), Option.bind_some]
    have hS' := hS; rw [hS12] at hS'
    have hins := insert_SS hs S1 S2 t hS' hS2
      (asc_last hs (List.pairwise_append.1 hS').1 hS1)
    rw [← hS12] at hins
    have hSS : SS lt (S1 ++ t :: S2) (D ++ [t]) := by
      refine ⟨hins.perm.trans (hSD.perm.append_right _), hins.asc, fun c => ?_⟩
      rw [hins.stable c, List.filter_append, List.filter_append, hSD.stable c]
    obtain ⟨S', hS'1, hS'2⟩ := ih (D ++ [t]) (S1 ++ t :: S2) B (by
      intro x hx
      rcases List.mem_append.1 (hins.perm.mem_iff.1 hx) with hx | hx
      · exact hPS x hx
      · rw [List.mem_singleton.1 hx]; exact hPt) (fun x hx => hPT x (by simp [hx])) hSS.asc hSS
    refine ⟨S', by simpa using hS'1, ?_⟩
    have hlen : (S1 ++ t :: S2).length = S.length + 1 := by rw [hins.perm.length_eq]; simp
    rw [← hS'2]
    congr 1
    · rw [hlen]; simp; omega
    · simp
    · rw [hlen]; omega

/-- The insertion sorts. -/
theorem insertion_ok {cmp : α → α → Option Bool} {lt : α → α → Bool} {P : α → Prop} (hc : Computes cmp lt P)
    (hs : SWO lt) (A S B : List α) (hP : ∀ x ∈ S, P x) {pl pr : Nat} (hl : pl = A.length) (hr : pr = A.length + S.length) :
    ∃ S', SS lt S' S ∧ insertLoop cmp pl pr (A ++ S ++ B) (pl + 1) = some (A ++ S' ++ B) := by
  subst hl hr
  cases S with
  | nil =>
    refine ⟨[], SS.refl List.Pairwise.nil, ?_⟩
    rw [insertLoop, if_neg (by simp)]
  | cons s T =>
    obtain ⟨S', h1, h2⟩ := insertLoop_ok hc hs A T [s] [s] B (by simpa using hP s (by simp))
      (fun x hx => hP x (by simp [hx])) (List.pairwise_singleton _ _) (SS.refl (List.pairwise_singleton _ _))
    refine ⟨S', h1, ?_⟩
    rw [← h2]
    congr 1
    · simp; omega
    · simp

/-! ### Merging -/

theorem mergeToArr_ok {tr : α → α → Option Bool} {t : α → α → Bool} (W1 W2 A B : List α) (n : Nat) :
    ∀ (L R O G Wd : List α), L.length + R.length = n → G.length = L.length →
    (∀ r ∈ R, ∀ l ∈ L, tr r l = some (t r l)) →
    ∃ L' R' G' O', mergeL t L R = O' ++ L' ++ R' ∧ (L' = [] ∨ R' = []) ∧ G'.length = L'.length ∧
      (∃ Wd', W1 ++ Wd ++ L ++ W2 = W1 ++ Wd' ++ L' ++ W2 ∧
      mergeToArr tr (W1 ++ Wd ++ L ++ W2) (W1.length + Wd.length + L.length) (A.length + O.length + G.length + R.length)
        (A ++ O ++ G ++ R ++ B) (W1.length + Wd.length) (A.length + O.length + G.length) (A.length + O.length) =
        some (A ++ (O ++ O') ++ G' ++ R' ++ B, W1.length + Wd'.length, A.length + (O ++ O').length)) := by
  induction n with
  | zero =>
    intro L R O G Wd hn hG _
    have hL : L = [] := List.length_eq_zero_iff.1 (by omega)
    have hR : R = [] := List.length_eq_zero_iff.1 (by omega)
    subst hL hR
    refine ⟨[], [], G, [], by simp [mergeL], Or.inl rfl, hG, Wd, rfl, ?_⟩
    rw [mergeToArr, if_neg (by simp)]
    simp
  | succ n ih =>
    intro L R O G Wd hn hG ht
    rcases L with _ | ⟨l, L⟩
    · refine ⟨[], R, G, [], by simp [mergeL], Or.inl rfl, hG, Wd, rfl, ?_⟩
      rw [mergeToArr, if_neg (by simp)]
      simp
    rcases R with _ | ⟨r, R⟩
    · refine ⟨l :: L, [], G, [], by simp [mergeL], Or.inr rfl, hG, Wd, rfl, ?_⟩
      rw [mergeToArr, if_neg (by simp)]
      simp
    rcases G with _ | ⟨g, G⟩
    · simp at hG
    have hgr : (A ++ O ++ g :: G ++ r :: R ++ B)[A.length + O.length + (g :: G).length]? = some r := by
      have e : A ++ O ++ g :: G ++ r :: R ++ B = (A ++ O ++ g :: G) ++ r :: (R ++ B) := by simp
      rw [e]; exact get_mid (by simp; omega)
    have hgl : (W1 ++ Wd ++ l :: L ++ W2)[W1.length + Wd.length]? = some l := by
      have e : W1 ++ Wd ++ l :: L ++ W2 = (W1 ++ Wd) ++ l :: (L ++ W2) := by simp
      rw [e]; exact get_mid (by simp)
    have hpt : ∀ y, put (A ++ O ++ g :: G ++ r :: R ++ B) (A.length + O.length) y =
        some (A ++ O ++ y :: (G ++ r :: R ++ B)) := by
      intro y
      have e : A ++ O ++ g :: G ++ r :: R ++ B = (A ++ O) ++ g :: (G ++ r :: R ++ B) := by simp
      rw [e]; exact put_mid y (by simp)
    rw [mergeToArr, if_pos (by constructor <;> simp)]
    simp only [hgr, hgl, Option.bind_eq_bind, Option.bind_some, ht r (by simp) l (by simp), hpt]
    cases hb : t r l
    · -- take left
      obtain ⟨L', R', G', O', h1, h2, h3, Wd', h4, h5⟩ := ih L (r :: R) (O ++ [l]) G (Wd ++ [l])
        (by simp at hn ⊢; omega) (by simpa using hG) (fun r hr l hl => ht r hr l (by simp [hl]))
      refine ⟨L', R', G', l :: O', ?_, h2, h3, Wd', by simpa using h4, ?_⟩
      · rw [mergeL, if_neg (by simp [hb]), h1]; simp
      · simp only [Bool.false_eq_true, if_false]
        have e : A ++ (O ++ l :: O') = A ++ (O ++ [l] ++ O') := by simp
        have e' : A.length + (O ++ l :: O').length = A.length + (O ++ [l] ++ O').length := by simp
        rw [e, e', ← h5]
        congr 1 <;> simp <;> omega
    · obtain ⟨L', R', G', O', h1, h2, h3, Wd', h4, h5⟩ := ih (l :: L) R (O ++ [r]) (G ++ [r]) Wd
        (by simp at hn ⊢; omega) (by simpa using hG) (fun r hr l hl => ht r (by simp [hr]) l hl)
      refine ⟨L', R', G', r :: O', ?_, h2, h3, Wd', h4, ?_⟩
      · rw [mergeL, if_pos hb, h1]; simp
      · simp only [if_true]
        have e : A ++ (O ++ r :: O') = A ++ (O ++ [r] ++ O') := by simp
        have e' : A.length + (O ++ r :: O').length = A.length + (O ++ [r] ++ O').length := by simp
        rw [e, e', ← h5]
        congr 1 <;> simp <;> omega

theorem copyLoop_ok (S : List α) :
    ∀ (S1 S2 D1 G D2 : List α), G.length = S.length →
    copyLoop (S1 ++ S ++ S2) (S1.length + S.length) (D1 ++ G ++ D2) S1.length D1.length = some (D1 ++ S ++ D2) := by
  induction S with
  | nil =>
    intro S1 S2 D1 G D2 hG
    have : G = [] := List.length_eq_zero_iff.1 (by simpa using hG)
    subst this
    rw [copyLoop, if_neg (by simp)]
  | cons s S ih =>
    intro S1 S2 D1 G D2 hG
    rcases G with _ | ⟨g, G⟩
    · simp at hG
    rw [copyLoop, if_pos (by simp)]
    have e1 : S1 ++ s :: S ++ S2 = S1 ++ s :: (S ++ S2) := by simp
    have e2 : D1 ++ g :: G ++ D2 = D1 ++ g :: (G ++ D2) := by simp
    rw [e1, e2, get_mid rfl]
    simp only [Option.bind_eq_bind, Option.bind_some, put_mid s rfl]
    have := ih (S1 ++ [s]) S2 (D1 ++ [s]) G D2 (by simpa using hG)
    have e3 : D1 ++ s :: S ++ D2 = D1 ++ [s] ++ S ++ D2 := by simp
    rw [e3, ← this]
    congr 1 <;> simp <;> omega

/-- Merge back into the array and copy the rest of the left run: the whole second half of a merge step. -/
theorem mergeBack_ok {tr : α → α → Option Bool} {t : α → α → Bool} (W1 L W2 A G R B : List α)
    (hG : G.length = L.length) (ht : ∀ r ∈ R, ∀ l ∈ L, tr r l = some (t r l)) {pw pwEnd pm pr pl : Nat}
    (h1 : pw = W1.length) (h2 : pwEnd = W1.length + L.length) (h3 : pl = A.length) (h4 : pm = A.length + G.length)
    (h5 : pr = A.length + G.length + R.length) :
    (do let m ← mergeToArr tr (W1 ++ L ++ W2) pwEnd pr (A ++ G ++ R ++ B) pw pm pl
        copyLoop (W1 ++ L ++ W2) pwEnd m.1 m.2.1 m.2.2) = some (A ++ mergeL t L R ++ B) := by
  obtain ⟨L', R', G', O', e1, e2, e3, Wd', e4, e5⟩ :=
    mergeToArr_ok (tr := tr) (t := t) W1 W2 A B _ L R [] G [] rfl hG ht
  subst h1 h2 h3 h4 h5
  simp only [List.append_nil, List.length_nil, Nat.add_zero, List.nil_append] at e4 e5
  simp only [Option.bind_eq_bind, e5, Option.bind_some]
  have hlen : W1.length + L.length = W1.length + Wd'.length + L'.length := by
    have := congrArg List.length e4; simp at this; omega
  rw [e4, hlen, e1]
  rcases e2 with rfl | rfl
  · have hg : G' = [] := List.length_eq_zero_iff.1 (by simpa using e3)
    subst hg
    have := copyLoop_ok ([] : List α) (W1 ++ Wd') W2 (A ++ O' ++ R' ++ B) [] [] rfl
    rw [copyLoop, if_neg (by simp)]
    simp
  · have := copyLoop_ok L' (W1 ++ Wd') W2 (A ++ O') G' B e3
    simp only [List.append_nil]
    have e : A ++ (O' ++ L') ++ B = A ++ O' ++ L' ++ B := by simp
    rw [e, ← this]
    congr 1 <;> simp

theorem mergeToWs_ok {tr : α → α → Option Bool} {t : α → α → Bool} (A1 B W2 D0 : List α) (n : Nat) :
    ∀ (L R O G Ld Rd : List α), L.length + R.length = n → G.length = L.length + R.length →
    (∀ r ∈ R, ∀ l ∈ L, tr r l = some (t r l)) →
    ∃ L' R' G' O' Ld' Rd', mergeL t L R = O' ++ L' ++ R' ∧ (L' = [] ∨ R' = []) ∧ G'.length = L'.length + R'.length ∧
      Ld ++ L = Ld' ++ L' ∧ Rd ++ R = Rd' ++ R' ∧
      mergeToWs tr (A1 ++ (Ld ++ L) ++ (Rd ++ R) ++ B) (A1.length + Ld.length + L.length)
        (A1.length + Ld.length + L.length + Rd.length + R.length)
        (D0 ++ O ++ G ++ W2) (A1.length + Ld.length) (A1.length + Ld.length + L.length + Rd.length) (D0.length + O.length) =
        some (D0 ++ (O ++ O') ++ G' ++ W2, A1.length + Ld'.length, A1.length + (Ld ++ L).length + Rd'.length,
          D0.length + (O ++ O').length) := by
  induction n with
  | zero =>
    intro L R O G Ld Rd hn hG _
    have hL : L = [] := List.length_eq_zero_iff.1 (by omega)
    have hR : R = [] := List.length_eq_zero_iff.1 (by omega)
    subst hL hR
    refine ⟨[], [], G, [], Ld, Rd, by simp [mergeL], Or.inl rfl, hG, rfl, rfl, ?_⟩
    rw [mergeToWs, if_neg (by simp)]
    simp
  | succ n ih =>
    intro L R O G Ld Rd hn hG ht
    rcases L with _ | ⟨l, L⟩
    · refine ⟨[], R, G, [], Ld, Rd, by simp [mergeL], Or.inl rfl, hG, rfl, rfl, ?_⟩
      rw [mergeToWs, if_neg (by simp)]
      simp
    rcases R with _ | ⟨r, R⟩
    · refine ⟨l :: L, [], G, [], Ld, Rd, by simp [mergeL], Or.inr rfl, hG, rfl, rfl, ?_⟩
      rw [mergeToWs, if_neg (by simp)]
      simp [Nat.add_assoc]
    rcases G with _ | ⟨g, G⟩
    · simp at hG
    have hgr : (A1 ++ (Ld ++ l :: L) ++ (Rd ++ r :: R) ++ B)[A1.length + Ld.length + (l :: L).length + Rd.length]? = some r := by
      have e : A1 ++ (Ld ++ l :: L) ++ (Rd ++ r :: R) ++ B = (A1 ++ (Ld ++ l :: L) ++ Rd) ++ r :: (R ++ B) := by simp
      rw [e]; exact get_mid (by simp; omega)
    have hgl : (A1 ++ (Ld ++ l :: L) ++ (Rd ++ r :: R) ++ B)[A1.length + Ld.length]? = some l := by
      have e : A1 ++ (Ld ++ l :: L) ++ (Rd ++ r :: R) ++ B = (A1 ++ Ld) ++ l :: (L ++ (Rd ++ r :: R) ++ B) := by simp
      rw [e]; exact get_mid (by simp)
    have hpt : ∀ y, put (D0 ++ O ++ g :: G ++ W2) (D0.length + O.length) y =
        some (D0 ++ O ++ y :: (G ++ W2)) := by
      intro y
      have e : D0 ++ O ++ g :: G ++ W2 = (D0 ++ O) ++ g :: (G ++ W2) := by simp
      rw [e]; exact put_mid y (by simp)
    rw [mergeToWs, if_pos (by constructor <;> simp)]
    simp only [hgr, hgl, Option.bind_eq_bind, Option.bind_some, ht r (by simp) l (by simp), hpt]
    cases hb : t r l
    · obtain ⟨L', R', G', O', Ld', Rd', h1, h2, h3, h4, h5, h6⟩ := ih L (r :: R) (O ++ [l]) G (Ld ++ [l]) Rd
        (by simp at hn ⊢; omega) (by simp at hG ⊢; omega) (fun r hr l hl => ht r hr l (by simp [hl]))
      refine ⟨L', R', G', l :: O', Ld', Rd', ?_, h2, h3, by rw [← h4]; simp, h5, ?_⟩
      · rw [mergeL, if_neg (by simp [hb]), h1]; simp
      · simp only [Bool.false_eq_true, if_false]
        have e : D0 ++ (O ++ l :: O') = D0 ++ (O ++ [l] ++ O') := by simp
        have e' : D0.length + (O ++ l :: O').length = D0.length + (O ++ [l] ++ O').length := by simp
        have e'' : (Ld ++ l :: L) = (Ld ++ [l] ++ L) := by simp
        rw [e, e', e'', ← h6]
        congr 1 <;> simp <;> omega
    · obtain ⟨L', R', G', O', Ld', Rd', h1, h2, h3, h4, h5, h6⟩ := ih (l :: L) R (O ++ [r]) G Ld (Rd ++ [r])
        (by simp at hn ⊢; omega) (by simp at hG ⊢; omega) (fun r hr l hl => ht r (by simp [hr]) l hl)
      refine ⟨L', R', G', r :: O', Ld', Rd', ?_, h2, h3, h4, by rw [← h5]; simp, ?_⟩
      · rw [mergeL, if_pos hb, h1]; simp
      · simp only [if_true]
        have e : D0 ++ (O ++ r :: O') = D0 ++ (O ++ [r] ++ O') := by simp
        have e' : D0.length + (O ++ r :: O').length = D0.length + (O ++ [r] ++ O').length := by simp
        have e'' : (Rd ++ r :: R) = (Rd ++ [r] ++ R) := by simp
        rw [e, e', e'', ← h6]
        congr 1 <;> simp <;> omega

/-- Merge into the workspace, then copy the rests; `N` are the elements that were cut off the right run
before the merge (NaNs) and follow at the end. -/
theorem mergeOut_ok {tr : α → α → Option Bool} {t : α → α → Bool} (A1 L R N B D0 G W2 : List α)
    (hG : G.length = L.length + R.length + N.length) (ht : ∀ r ∈ R, ∀ l ∈ L, tr r l = some (t r l))
    {pl pm pr origpr pw : Nat} (h1 : pl = A1.length) (h2 : pm = A1.length + L.length)
    (h3 : pr = A1.length + L.length + R.length) (h4 : origpr = A1.length + L.length + R.length + N.length)
    (h5 : pw = D0.length) :
    (do let m ← mergeToWs tr (A1 ++ L ++ (R ++ N) ++ B) pm pr (D0 ++ G ++ W2) pl pm pw
        let w ← copyLoop (A1 ++ L ++ (R ++ N) ++ B) pm m.1 m.2.1 m.2.2.2
        copyLoop (A1 ++ L ++ (R ++ N) ++ B) origpr w m.2.2.1 (m.2.2.2 + (pm - m.2.1))) =
      some (D0 ++ (mergeL t L R ++ N) ++ W2) := by
  obtain ⟨G1, G2, rfl, hg1, hg2⟩ : ∃ G1 G2, G = G1 ++ G2 ∧ G1.length = L.length + R.length ∧ G2.length = N.length :=
    ⟨G.take (L.length + R.length), G.drop (L.length + R.length), by simp, by simp; omega, by simp; omega⟩
  obtain ⟨L', R', G', O', Ld', Rd', e1, e2, e3, e4, e5, e6⟩ :=
    mergeToWs_ok (tr := tr) (t := t) A1 (N ++ B) (G2 ++ W2) D0 _ L R [] G1 [] [] rfl hg1 ht
  subst h1 h2 h3 h4 h5
  simp only [List.append_nil, List.length_nil, Nat.add_zero, List.nil_append] at e4 e5 e6
  have ea : A1 ++ L ++ (R ++ N) ++ B = A1 ++ L ++ R ++ (N ++ B) := by simp
  have ew : D0 ++ (G1 ++ G2) ++ W2 = D0 ++ G1 ++ (G2 ++ W2) := by simp
  rw [ea, ew]
  simp only [Option.bind_eq_bind, e6, Option.bind_some]
  obtain ⟨Ga, Gb, rfl, hga, hgb⟩ : ∃ Ga Gb, G' = Ga ++ Gb ∧ Ga.length = L'.length ∧ Gb.length = R'.length :=
    ⟨G'.take L'.length, G'.drop L'.length, by simp, by simp; omega, by simp; omega⟩
  -- rest of the left run
  have c1 := copyLoop_ok L' (A1 ++ Ld') (R ++ (N ++ B)) (D0 ++ O') Ga (Gb ++ (G2 ++ W2)) hga
  have c1' : copyLoop (A1 ++ L ++ R ++ (N ++ B)) (A1.length + L.length) (D0 ++ O' ++ (Ga ++ Gb) ++ (G2 ++ W2))
      (A1.length + Ld'.length) (D0.length + O'.length) = some (D0 ++ O' ++ L' ++ (Gb ++ (G2 ++ W2))) := by
    rw [← c1]
    have : L.length = Ld'.length + L'.length := by have := congrArg List.length e4; simpa using this
    congr 1 <;> simp [e4] <;> omega
  rw [c1', Option.bind_some]
  -- rest of the right run and what was cut off
  have c2 := copyLoop_ok (R' ++ N) (A1 ++ L ++ Rd') B (D0 ++ O' ++ L') (Gb ++ G2) W2 (by simp; omega)
  have hL : L.length = Ld'.length + L'.length := by have := congrArg List.length e4; simpa using this
  have hR : R.length = Rd'.length + R'.length := by have := congrArg List.length e5; simpa using this
  have e : D0 ++ (mergeL t L R ++ N) ++ W2 = D0 ++ O' ++ L' ++ (R' ++ N) ++ W2 := by rw [e1]; simp
  rw [e, ← c2]
  congr 1 <;> simp [e5] <;> omega

/-- FIND_NANS: the right run without its trailing NaNs. -/
theorem findNans_ok (isNaN : α → Bool) (A B : List α) (n : Nat) :
    ∀ (R N : List α), R.length = n → R ≠ [] → (∀ x, R.head? = some x → isNaN x = false) →
    ∃ R' N', R = R' ++ N' ∧ (∀ x ∈ N', isNaN x = true) ∧ (∀ x, R'.getLast? = some x → isNaN x = false) ∧ R' ≠ [] ∧
      findNans isNaN (A ++ R ++ N ++ B) A.length (A.length + R.length) = some (A.length + R'.length) := by
  induction n with
  | zero => intro R _ hn hne; exact absurd (List.length_eq_zero_iff.1 hn) hne
  | succ n ih =>
    intro R N hn hne hh
    obtain ⟨R0, y, rfl⟩ : ∃ S' y, R = S' ++ [y] := by
      rcases List.eq_nil_or_concat R with h | ⟨S', y, h⟩
      · exact absurd h hne
      · exact ⟨S', y, by simpa using h⟩
    have hget : (A ++ (R0 ++ [y]) ++ N ++ B)[A.length + (R0 ++ [y]).length - 1]? = some y := by
      have e : A ++ (R0 ++ [y]) ++ N ++ B = (A ++ R0) ++ y :: (N ++ B) := by simp
      rw [e]; exact get_mid (by simp)
    rw [findNans, if_neg (by simp)]
    simp only [hget, Option.bind_eq_bind, Option.bind_some]
    cases hy : isNaN y
    · refine ⟨R0 ++ [y], [], by simp, by simp, ?_, by simp, by simp⟩
      intro x hx; simp at hx; rw [← hx]; exact hy
    · rcases R0 with _ | ⟨r, R0⟩
      · have := hh y (by simp); rw [this] at hy; exact absurd hy (by decide)
      · obtain ⟨R', N', h1, h2, h3, h4, h5⟩ := ih (r :: R0) (y :: N) (by simpa using hn) (by simp)
          (fun x hx => hh x (by simpa using hx))
        refine ⟨R', N' ++ [y], by rw [h1]; simp, ?_, h3, h4, ?_⟩
        · intro x hx
          rcases List.mem_append.1 hx with hx | hx
          · exact h2 x hx
          · rw [List.mem_singleton.1 hx]; exact hy
        · simp only [if_true]
          rw [if_pos (by simp)]
          rw [← h5]
          congr 1
          · simp
          · simp

end Pnumpy.Sort
