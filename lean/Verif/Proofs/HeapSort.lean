import Verif.Proofs.SortFrame
/-
Heapsort.
-/
namespace Pnumpy.Sort
variable {α : Type} {cmp : α → α → Option Bool} {lt : α → α → Bool} {P : α → Prop}

/-- Positions `l .. n` (1-based from `base`) form a heap, except below position `h`. -/
def HeapExc (lt : α → α → Bool) (base l n h : Nat) (b : List α) : Prop :=
  ∀ k x y, 1 ≤ k / 2 → l ≤ k / 2 → k ≤ n → k / 2 ≠ h → b[base + k / 2 - 1]? = some x → b[base + k - 1]? = some y →
    lt x y = false

/-- ... without exception. -/
def Heap (lt : α → α → Bool) (base l n : Nat) (b : List α) : Prop :=
  ∀ k x y, 1 ≤ k / 2 → l ≤ k / 2 → k ≤ n → b[base + k / 2 - 1]? = some x → b[base + k - 1]? = some y → lt x y = false

theorem siftDown_ok (hc : Computes cmp lt P) (hs : SWO lt) {base n l : Nat} {tmp : α} (ht : P tmp) (m : Nat) :
    ∀ (a : List α) (i : Nat), n - i = m → 1 ≤ i → i ≤ n → base + n ≤ a.length →
    AllIn P base (base + n) (a.set (base + i - 1) tmp) →
    HeapExc lt base l n i (a.set (base + i - 1) tmp) →
    (∀ k x y, k / 2 = i → k ≤ n → 1 ≤ i / 2 → l ≤ i / 2 → (a.set (base + i - 1) tmp)[base + i / 2 - 1]? = some x →
      (a.set (base + i - 1) tmp)[base + k - 1]? = some y → lt x y = false) →
    ∃ a' i', siftDown cmp base n tmp a i (i * 2) = some (a', i') ∧ 1 ≤ i' ∧ i' ≤ n ∧ a'.length = a.length ∧
      Frame base (base + n) (a'.set (base + i' - 1) tmp) (a.set (base + i - 1) tmp) ∧
      Heap lt base l n (a'.set (base + i' - 1) tmp) := by
  induction m using Nat.strongRecOn with
  | _ m ih =>
  intro a i hm hi1 hin hlen hP H1 H2
  have hil : base + i - 1 < a.length := by omega
  by_cases hj : i * 2 ≤ n
  · -- the larger child
    obtain ⟨j, hj1, hj2, hjmax, hjrun⟩ : ∃ j, j / 2 = i ∧ j ≤ n ∧
        (∀ k x y, k / 2 = i → k ≤ n → a[base + j - 1]? = some x → a[base + k - 1]? = some y → lt x y = false) ∧
        largerChild cmp base n a (i * 2) = some j := by
      unfold largerChild
      by_cases hj' : i * 2 < n
      · obtain ⟨x, hx⟩ := get_some a (i := base + i * 2 - 1) (by omega)
        obtain ⟨y, hy⟩ := get_some a (i := base + (i * 2 + 1) - 1) (by omega)
        have hPa : ∀ p z, base ≤ p → p < base + n → p ≠ base + i - 1 → a[p]? = some z → P z := by
          intro p z hp1 hp2 hp hz
          apply hP p z hp1 hp2
          rw [get_set _ _ _ _ hil, if_neg (by omega)]; exact hz
        have hPx := hPa _ x (by omega) (by omega) (by omega) hx
        have hPy := hPa _ y (by omega) (by omega) (by omega) hy
        rw [if_pos hj']
        simp only [hx, hy, Option.bind_eq_bind, Option.bind_some, hc x y hPx hPy]
        cases hb : lt x y
        · refine ⟨i * 2, by omega, by omega, ?_, rfl⟩
          intro k x' y' hk hkn hx' hy'
          rw [hx] at hx'; injection hx' with hx'; subst hx'
          rcases (show k = i * 2 ∨ k = i * 2 + 1 by omega) with rfl | rfl
          · rw [hx] at hy'; injection hy' with hy'; subst hy'; exact hs.irrefl _
          · rw [hy] at hy'; injection hy' with hy'; subst hy'; exact hb
        · refine ⟨i * 2 + 1, by omega, by omega, ?_, rfl⟩
          intro k x' y' hk hkn hx' hy'
          rw [hy] at hx'; injection hx' with hx'; subst hx'
          rcases (show k = i * 2 ∨ k = i * 2 + 1 by omega) with rfl | rfl
          · rw [hx] at hy'; injection hy' with hy'; subst hy'; exact hs.asymm _ _ hb
          · rw [hy] at hy'; injection hy' with hy'; subst hy'; exact hs.irrefl _
      · refine ⟨i * 2, by omega, by omega, ?_, by rw [if_neg hj']⟩
        intro k x' y' hk hkn hx' hy'
        have : k = i * 2 := by omega
        subst this
        rw [hx'] at hy'; injection hy' with hy'; subst hy'; exact hs.irrefl _
    obtain ⟨x, hx⟩ := get_some a (i := base + j - 1) (by omega)
    have hPx : P x := by
      apply hP (base + j - 1) x (by omega) (by omega)
      rw [get_set _ _ _ _ hil, if_neg (by omega)]; exact hx
    rw [siftDown, if_pos hj]
    rw [hjrun]
    simp only [Option.bind_eq_bind, Option.bind_some, hx, hc tmp x ht hPx]
    cases hb : lt tmp x
    · -- stop here
      refine ⟨a, i, by simp, hi1, hin, rfl, Frame.refl _ _ _, ?_⟩
      intro k u w h1 h2 h3 hu hw
      by_cases hki : k / 2 = i
      · rw [get_set _ _ _ _ hil, if_pos (by rw [hki])] at hu
        injection hu with hu; subst hu
        rw [get_set _ _ _ _ hil, if_neg (by omega)] at hw
        exact hs.geTrans (hjmax k x w hki h3 hx hw) hb |> fun h => by
          have := hjmax k x w hki h3 hx hw
          exact hs.geTrans (x := w) (y := x) (z := tmp) this hb
      · exact H1 k u w h1 h2 h3 hki hu hw
    · -- move the child up
      simp only [if_true, put_some x hil, Option.bind_some]
      rw [show j + j = j * 2 by omega]
      have hset : (a.set (base + i - 1) x).set (base + j - 1) tmp =
          ((a.set (base + i - 1) tmp).set (base + i - 1) x).set (base + j - 1) tmp := by simp
      have hb1 : (a.set (base + i - 1) tmp)[base + i - 1]? = some tmp := by
        rw [get_set _ _ _ _ hil, if_pos rfl]
      have hb2 : (a.set (base + i - 1) tmp)[base + j - 1]? = some x := by
        rw [get_set _ _ _ _ hil, if_neg (by omega), hx]
      have hfr : Frame base (base + n) ((a.set (base + i - 1) x).set (base + j - 1) tmp) (a.set (base + i - 1) tmp) := by
        rw [hset]
        exact frame_swap (by omega) (by omega) (by omega) (by omega) hb1 hb2
      have hget : ∀ p, ((a.set (base + i - 1) x).set (base + j - 1) tmp)[p]? =
          if base + j - 1 = p then some tmp else if base + i - 1 = p then some x else a[p]? := by
        intro p
        rw [get_set _ _ _ _ (by rw [List.length_set]; omega), get_set _ _ _ _ hil]
      have hgeta : ∀ p, (a.set (base + i - 1) tmp)[p]? = if base + i - 1 = p then some tmp else a[p]? := by
        intro p; rw [get_set _ _ _ _ hil]
      obtain ⟨a', i', r1, r2, r3, r4, r5, r6⟩ := ih (n - j) (by omega) (a.set (base + i - 1) x) j rfl (by omega) hj2
        (by simpa using hlen) (hfr.allIn hP) (by
          intro k u w h1 h2 h3 h4 hu hw
          rw [hget] at hu hw
          by_cases hki : k / 2 = i
          · rw [if_neg (by omega), if_pos (by rw [hki])] at hu
            injection hu with hu; subst hu
            by_cases hkj : k = j
            · rw [if_pos (by rw [hkj])] at hw; injection hw with hw; subst hw
              exact hs.asymm _ _ hb
            · rw [if_neg (by omega), if_neg (by omega)] at hw
              exact hjmax k x w hki h3 hx hw
          · rw [if_neg (by omega), if_neg (by omega)] at hu
            by_cases hk : k = i
            · rw [if_neg (by omega), if_pos (by rw [hk])] at hw
              injection hw with hw; subst hw
              subst hk
              refine H2 j u x hj1 hj2 h1 h2 ?_ hb2
              rw [hgeta, if_neg (by omega)]; exact hu
            · rw [if_neg (by omega), if_neg (by omega)] at hw
              refine H1 k u w h1 h2 h3 hki ?_ ?_
              · rw [hgeta, if_neg (by omega)]; exact hu
              · rw [hgeta, if_neg (by omega)]; exact hw) (by
          intro k u w h1 h3 h4 h5 hu hw
          rw [hget] at hu hw
          rw [if_neg (by omega), if_pos (by rw [hj1])] at hu
          rw [if_neg (by omega), if_neg (by omega)] at hw
          injection hu with hu; subst hu
          refine H1 k x w (by omega) (by omega) h3 (by omega) ?_ ?_
          · rw [h1]; exact hb2
          · rw [hgeta, if_neg (by omega)]; exact hw)
      exact ⟨a', i', r1, r2, r3, by simpa using r4, r5.trans hfr, r6⟩
  · -- no children
    rw [siftDown, if_neg hj]
    refine ⟨a, i, rfl, hi1, hin, rfl, Frame.refl _ _ _, ?_⟩
    intro k u w h1 h2 h3 hu hw
    exact H1 k u w h1 h2 h3 (by omega) hu hw

theorem heapify_ok (hc : Computes cmp lt P) (hs : SWO lt) {base n : Nat} (l : Nat) :
    ∀ (a : List α), l ≤ n / 2 → base + n ≤ a.length → AllIn P base (base + n) a → Heap lt base (l + 1) n a →
    ∃ a', heapify cmp base n a l = some a' ∧ Frame base (base + n) a' a ∧ Heap lt base 1 n a' := by
  induction l with
  | zero =>
    intro a _ _ _ h
    exact ⟨a, by rw [heapify, if_neg (by omega)], Frame.refl _ _ _, h⟩
  | succ l ih =>
    intro a hl hlen hP h
    obtain ⟨tmp, htmp⟩ := get_some a (i := base + (l + 1) - 1) (by omega)
    have hself := set_self htmp
    obtain ⟨a', i', r1, r2, r3, r4, r5, r6⟩ := siftDown_ok hc hs (base := base) (n := n) (l := l + 1) (tmp := tmp)
      (hP _ tmp (by omega) (by omega) htmp) _ a (l + 1) rfl (by omega) (by omega) hlen (by rw [hself]; exact hP)
      (by rw [hself]; intro k x y h1 h2 h3 h4 hx hy; exact h k x y h1 (by omega) h3 hx hy)
      (by intro k x y h1 h2 h3 h4; omega)
    rw [hself] at r5
    obtain ⟨a'', s1, s2, s3⟩ := ih (a'.set (base + i' - 1) tmp) (by omega) (by simp; omega) (r5.allIn hP) r6
    refine ⟨a'', ?_, s2.trans r5, s3⟩
    rw [heapify, if_pos (by omega)]
    simp only [htmp, Option.bind_eq_bind, Option.bind_some, r1, put_some tmp (show base + i' - 1 < a'.length by omega)]
    exact s1

/-- The root of a heap is a maximum. -/
theorem heap_root (hs : SWO lt) {base n : Nat} {a : List α} (h : Heap lt base 1 n a) (hlen : base + n ≤ a.length) {r : α}
    (hr : a[base + 1 - 1]? = some r) (k : Nat) : ∀ x, 1 ≤ k → k ≤ n → a[base + k - 1]? = some x → lt r x = false := by
  induction k using Nat.strongRecOn with
  | _ k ih =>
    intro x h1 h2 hx
    by_cases hk : k = 1
    · subst hk; rw [hr] at hx; injection hx with hx; subst hx; exact hs.irrefl _
    · obtain ⟨p, hp⟩ := get_some a (i := base + k / 2 - 1) (by omega)
      have e1 := ih (k / 2) (by omega) p (by omega) (by omega) hp
      have e2 := h k p x (by omega) (by omega) h2 hp hx
      exact hs.geTrans e2 e1

theorem heapPop_ok (hc : Computes cmp lt P) (hs : SWO lt) {base N : Nat} (n : Nat) :
    ∀ (a : List α), n ≤ N → base + N ≤ a.length → AllIn P base (base + N) a → Heap lt base 1 n a →
    (∀ p q x y, base ≤ p → p < q → base + n ≤ q → q < base + N → a[p]? = some x → a[q]? = some y → lt y x = false) →
    ∃ a', heapPop cmp base a n = some a' ∧ Frame base (base + N) a' a ∧ AscAt lt base (base + N) a' := by
  induction n with
  | zero =>
    intro a _ _ _ _ ht
    refine ⟨a, by rw [heapPop, if_neg (by omega)], Frame.refl _ _ _, ?_⟩
    intro p q x y h1 h2 h3 hx hy
    exact ht p q x y h1 h2 (by omega) h3 hx hy
  | succ n ih =>
    intro a hn hlen hP hh ht
    by_cases hn1 : n + 1 > 1
    · obtain ⟨tmp, htmp⟩ := get_some a (i := base + (n + 1) - 1) (by omega)
      obtain ⟨r, hr⟩ := get_some a (i := base + 1 - 1) (by omega)
      have hmax := heap_root hs hh (by omega) hr
      have hn' : base + (n + 1) - 1 < a.length := by omega
      have hfr : Frame base (base + (n + 1)) ((a.set (base + (n + 1) - 1) r).set (base + 1 - 1) tmp) a :=
        frame_swap (by omega) (by omega) (by omega) (by omega) htmp hr
      have hget : ∀ p, ((a.set (base + (n + 1) - 1) r).set (base + 1 - 1) tmp)[p]? =
          if base + 1 - 1 = p then some tmp else if base + (n + 1) - 1 = p then some r else a[p]? := by
        intro p
        rw [get_set _ _ _ _ (by rw [List.length_set]; omega), get_set _ _ _ _ hn']
      obtain ⟨a', i', r1, r2, r3, r4, r5, r6⟩ := siftDown_ok hc hs (base := base) (n := n) (l := 1) (tmp := tmp)
        (hP _ tmp (by omega) (by omega) htmp) _ (a.set (base + (n + 1) - 1) r) 1 rfl (by omega) (by omega) (by simp; omega)
        (((hfr.mono (Nat.le_refl _) (by omega)).allIn hP).mono (Nat.le_refl _) (by omega))
        (by
          intro k x y h1 h2 h3 h4 hx hy
          rw [hget, if_neg (by omega), if_neg (by omega)] at hx
          rw [hget, if_neg (by omega), if_neg (by omega)] at hy
          exact hh k x y h1 h2 (by omega) hx hy)
        (by intro k x y h1 h2 h3; omega)
      have hframe : Frame base (base + (n + 1)) (a'.set (base + i' - 1) tmp) a :=
        (r5.mono (by omega) (by omega)).trans hfr
      obtain ⟨a'', s1, s2, s3⟩ := ih (a'.set (base + i' - 1) tmp) (by omega) (by rw [hframe.len]; exact hlen)
        ((hframe.mono (Nat.le_refl _) (by omega)).allIn hP) r6 (by
          intro p q x y h1 h2 h3 h4 hx hy
          by_cases hq : q = base + n
          · -- the old root against what is still in the heap
            rw [hq, r5.out _ (by omega), hget, if_neg (by omega), if_pos (by omega)] at hy
            injection hy with hy; subst hy
            obtain ⟨k, k1, k2, k3⟩ := hframe.inn p h1 (by omega)
            rw [k3] at hx
            exact hmax (k - base + 1) x (by omega) (by omega) (by rw [show base + (k - base + 1) - 1 = k by omega]; exact hx)
          · rw [hframe.out q (by omega)] at hy
            by_cases hp : p < base + (n + 1)
            · obtain ⟨k, k1, k2, k3⟩ := hframe.inn p h1 hp
              rw [k3] at hx
              exact ht k q x y k1 (by omega) (by omega) h4 hx hy
            · rw [hframe.out p (by omega)] at hx
              exact ht p q x y h1 h2 (by omega) h4 hx hy)
      refine ⟨a'', ?_, s2.trans (hframe.mono (by omega) (by omega)), s3⟩
      rw [heapPop, if_pos hn1]
      rw [Nat.add_sub_cancel n 1, show (2 : Nat) = 1 * 2 from rfl]
      simp only [htmp, hr, Option.bind_eq_bind, Option.bind_some, put_some r hn', r1]
      simp only [Option.bind_some, put_some tmp (show base + i' - 1 < a'.length by rw [r4, List.length_set]; omega)]
      exact s1
    · refine ⟨a, by rw [heapPop, if_neg hn1], Frame.refl _ _ _, ?_⟩
      intro p q x y h1 h2 h3 hx hy
      exact ht p q x y h1 h2 (by omega) h3 hx hy

/-- heapsort_ / aheapsort_. -/
theorem heapsort_ok (hc : Computes cmp lt P) (hs : SWO lt) {base n : Nat} (a : List α) (hlen : base + n ≤ a.length)
    (hP : AllIn P base (base + n) a) :
    ∃ a', heapsort cmp a base n = some a' ∧ Frame base (base + n) a' a ∧ AscAt lt base (base + n) a' := by
  obtain ⟨a1, h1, h2, h3⟩ := heapify_ok hc hs (base := base) (n := n) (n / 2) a (by omega) hlen hP
    (by intro k x y h1 h2 h3; omega)
  obtain ⟨a2, h4, h5, h6⟩ := heapPop_ok hc hs (base := base) (N := n) n a1 (by omega) (by rw [h2.len]; exact hlen)
    (h2.allIn hP) h3 (by intro p q x y e1 e2 e3 e4; omega)
  refine ⟨a2, ?_, h5.trans h2, h6⟩
  simp only [heapsort, h1, Option.bind_eq_bind, Option.bind_some, h4]

end Pnumpy.Sort
