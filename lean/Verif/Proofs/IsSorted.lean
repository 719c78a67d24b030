import Verif.Model.IsSorted
import Verif.Proofs.Strings
import Verif.Proofs.SortTypes
namespace Pnumpy.IsSorted
open Pnumpy.Sort Pnumpy.ParSort Pnumpy.Str Spec

section
variable {α : Type}

/-- Neighbours are in order. -/
def Adj (le : α → α → Bool) (a : List α) : Prop := ∀ i x y, a[i]? = some x → a[i + 1]? = some y → le x y = true

theorem skipNaN_ok (nan : α → Bool) (a : List α) (i : Nat) (hi : i = 0 ∨ i < a.length) :
    ∃ j, skipNaN nan a i = some j ∧ j ≤ i ∧ (∀ k x, j < k → k ≤ i → a[k]? = some x → nan x = true) ∧
      (j ≠ 0 → ∀ x, a[j]? = some x → nan x = false) := by
  induction i with
  | zero => exact ⟨0, rfl, Nat.le_refl _, fun k x h1 h2 => absurd h1 (by omega), fun h => absurd rfl h⟩
  | succ i ih =>
    have hl : i + 1 < a.length := by omega
    obtain ⟨j, h1, h2, h3, h4⟩ := ih (by omega)
    rw [skipNaN, List.getElem?_eq_getElem hl]
    simp only [Option.bind_eq_bind, Option.bind_some]
    by_cases hn : nan a[i + 1] = true
    · rw [if_pos hn]
      refine ⟨j, h1, by omega, fun k x k1 k2 hx => ?_, h4⟩
      rcases Nat.lt_or_ge i k with h | h
      · obtain rfl : k = i + 1 := by omega
        rw [List.getElem?_eq_getElem hl] at hx; rw [← Option.some.inj hx]; exact hn
      · exact h3 k x k1 h hx
    · rw [if_neg hn]
      refine ⟨i + 1, rfl, Nat.le_refl _, fun k x k1 k2 => absurd k1 (by omega), fun _ x hx => ?_⟩
      rw [List.getElem?_eq_getElem hl] at hx; rw [← Option.some.inj hx]; simpa using hn

theorem descend_ok (ok : α → α → Option Bool) (g : α → α → Bool) (a : List α) (hg : ∀ x ∈ a, ∀ y ∈ a, ok x y = some (g x y))
    (i : Nat) (hi : i = 0 ∨ i < a.length) :
    ∃ j, descend ok a i = some j ∧ (j = 0 ↔ ∀ k x y, k < i → a[k]? = some x → a[k + 1]? = some y → g y x = true) := by
  induction i with
  | zero => exact ⟨0, rfl, fun _ k x y h => absurd h (by omega), fun _ => rfl⟩
  | succ i ih =>
    have hl : i + 1 < a.length := by omega
    obtain ⟨j, h1, h2⟩ := ih (by omega)
    rw [descend, List.getElem?_eq_getElem hl, List.getElem?_eq_getElem (by omega : i < a.length)]
    simp only [Option.bind_eq_bind, Option.bind_some, hg _ (List.getElem_mem _) _ (List.getElem_mem _)]
    by_cases hb : g a[i + 1] a[i] = true
    · rw [if_pos hb]
      refine ⟨j, h1, h2.trans ⟨fun h k x y hk hx hy => ?_, fun h k x y hk => h k x y (by omega)⟩⟩
      rcases Nat.lt_or_ge k i with h' | h'
      · exact h k x y h' hx hy
      · obtain rfl : k = i := by omega
        rw [List.getElem?_eq_getElem hl] at hy
        rw [List.getElem?_eq_getElem (by omega)] at hx
        rw [← Option.some.inj hx, ← Option.some.inj hy]; exact hb
    · rw [if_neg hb]
      refine ⟨i + 1, rfl, fun h => absurd h (by omega), fun h => ?_⟩
      exact absurd (h i _ _ (by omega) (List.getElem?_eq_getElem (by omega)) (List.getElem?_eq_getElem hl)) hb

/-- The answer for one array: neighbours `x, y` are in order if `y` is NaN or `y >= x`. -/
theorem isSortedFn_ok (nan : α → Bool) (ok : α → α → Option Bool) (g : α → α → Bool) (a : List α)
    (hg : ∀ x ∈ a, ∀ y ∈ a, ok x y = some (g x y)) (hn : ∀ x y, g y x = true → nan x = false ∧ nan y = false) :
    ∃ b, isSortedFn nan ok a = some b ∧ (b = true ↔ Adj (fun x y => nan y || g y x) a) := by
  obtain ⟨i, h1, h2, h3, h4⟩ := skipNaN_ok nan a (a.length - 1) (by omega)
  obtain ⟨j, h5, h6⟩ := descend_ok ok g a hg i (by omega)
  refine ⟨decide (j = 0), by simp [isSortedFn, h1, h5], ?_⟩
  rw [decide_eq_true_iff, h6]
  constructor
  · intro h k x y hx hy
    have hk : k + 1 < a.length := (List.getElem?_eq_some_iff.1 hy).1
    rcases Nat.lt_or_ge k i with h' | h'
    · simp [h k x y h' hx hy]
    · simp [h3 (k + 1) y (by omega) (by omega) hy]
  · intro h
    -- downwards from `i`: an element that is not NaN has a predecessor that is not NaN
    have hgood : ∀ d, d < i → ∀ y, a[i - d]? = some y → nan y = false := by
      intro d
      induction d with
      | zero => intro hd y hy; exact h4 (by omega) y hy
      | succ d ih =>
        intro hd x hx
        have hlt : i - d < a.length := by omega
        have hy := List.getElem?_eq_getElem hlt
        have hyn := ih (by omega) _ hy
        have := h (i - (d + 1)) x _ hx (by rw [show i - (d + 1) + 1 = i - d by omega]; exact hy)
        simp only [hyn, Bool.false_or] at this
        exact (hn _ _ this).1
    intro k x y hk hx hy
    have hyn : nan y = false := hgood (i - (k + 1)) (by omega) y (by rw [show i - (i - (k + 1)) = k + 1 by omega]; exact hy)
    have := h k x y hx hy
    simpa [hyn] using this

theorem chunk_get (a : List α) (t k : Nat) :
    (chunk a t)[k]? = if k < (if t = 0 then min 16384 (a.length - 16384 * t) else min 16384 (a.length - 16384 * t) + 1)
      then a[(if t = 0 then 0 else 16384 * t - 1) + k]? else none := by
  unfold chunk
  by_cases ht : t = 0
  · subst ht
    simp only [Nat.mul_zero, ne_eq, not_true_eq_false, if_false, if_true, List.drop_zero, Nat.sub_zero]
    rw [List.getElem?_take]; simp
  · have : 16384 * t ≠ 0 := by omega
    simp only [ne_eq, this, not_false_eq_true, if_true, if_neg ht]
    rw [List.getElem?_take]; simp [List.getElem?_drop]

/-- The chunks are in order iff the array is. -/
theorem chunks_adj (le : α → α → Bool) (a : List α) :
    (∀ t, t < (a.length + 16383) / 16384 → Adj le (chunk a t)) ↔ Adj le a := by
  constructor
  · intro h i x y hx hy
    have hi : i + 1 < a.length := (List.getElem?_eq_some_iff.1 hy).1
    have hdm : 16384 * ((i + 1) / 16384) + (i + 1) % 16384 = i + 1 := Nat.div_add_mod _ _
    have hm : (i + 1) % 16384 < 16384 := Nat.mod_lt _ (by omega)
    generalize ht : (i + 1) / 16384 = t at hdm
    generalize (i + 1) % 16384 = r at hdm hm
    have htl : t < (a.length + 16383) / 16384 := by omega
    refine h t htl (i - (if t = 0 then 0 else 16384 * t - 1)) x y ?_ ?_
    · rw [chunk_get]
      by_cases h0 : t = 0
      · subst h0; simp only [if_true, Nat.sub_zero, Nat.zero_add]; rw [if_pos (by omega)]; exact hx
      · simp only [if_neg h0]; rw [if_pos (by omega), show 16384 * t - 1 + (i - (16384 * t - 1)) = i by omega]; exact hx
    · rw [chunk_get]
      by_cases h0 : t = 0
      · subst h0; simp only [if_true, Nat.sub_zero, Nat.zero_add]; rw [if_pos (by omega)]; exact hy
      · simp only [if_neg h0]
        rw [if_pos (by omega), show 16384 * t - 1 + (i - (16384 * t - 1) + 1) = i + 1 by omega]; exact hy
  · intro h t _ k x y hx hy
    rw [chunk_get] at hx hy
    generalize (if t = 0 then min 16384 (a.length - 16384 * t) else min 16384 (a.length - 16384 * t) + 1) = m at hx hy
    by_cases h1 : k < m
    · by_cases h2 : k + 1 < m
      · rw [if_pos h1] at hx
        rw [if_pos h2, ← Nat.add_assoc] at hy
        exact h _ x y hx hy
      · rw [if_neg h2] at hy; cases hy
    · rw [if_neg h1] at hx; cases hx

/-- Invariant of the threads; `good t` says that chunk `t` is in order. -/
structure Inv (good : Nat → Prop) (N : Nat) (s : IS) : Prop where
  flag : s.flag = false → ∃ t, t < N ∧ ¬ good t
  run : ∀ t, s.st t = .running → t < N
  done : ∀ t, s.st t = .done → s.flag = true → good t

theorem reach_inv {f : List α → Option Bool} {a : List α} {good : Nat → Prop}
    (hf : ∀ t, t < (a.length + 16383) / 16384 → ∃ b, f (chunk a t) = some b ∧ (b = true ↔ good t)) {s : IS} (h : IReach f a s) :
    Inv good ((a.length + 16383) / 16384) s := by
  induction h with
  | start => exact ⟨(fun h => nomatch h), (fun _ h => nomatch h), (fun _ h => nomatch h)⟩
  | step _ hs i =>
    cases hs with
    | skip t ht h hfl =>
      refine ⟨i.flag, fun t' h' => ?_, fun t' _ h' => ?_⟩
      · by_cases e : t' = t
        · subst e; simp at h'
        · simp only [Function.update_of_ne e] at h'; exact i.run t' h'
      · rw [hfl] at h'; cases h'
    | enter t ht h hfl =>
      refine ⟨i.flag, fun t' h' => ?_, fun t' h' h'' => ?_⟩
      · by_cases e : t' = t
        · subst e; exact ht
        · simp only [Function.update_of_ne e] at h'; exact i.run t' h'
      · by_cases e : t' = t
        · subst e; simp at h'
        · simp only [Function.update_of_ne e] at h'; exact i.done t' h' h''
    | leave t r h hr =>
      have ht := i.run t h
      obtain ⟨b, h1, h2⟩ := hf t ht
      rw [hr] at h1; obtain rfl := Option.some.inj h1
      refine ⟨fun hfl => ?_, fun t' h' => ?_, fun t' h' h'' => ?_⟩
      · cases r
        · exact ⟨t, ht, fun hg => nomatch h2.2 hg⟩
        · exact i.flag hfl
      · by_cases e : t' = t
        · subst e; simp at h'
        · simp only [Function.update_of_ne e] at h'; exact i.run t' h'
      · cases r
        · cases h''
        · by_cases e : t' = t
          · subst e; exact h2.1 rfl
          · simp only [Function.update_of_ne e] at h'; exact i.done t' h' h''

theorem run_ok {f : List α → Option Bool} {le : α → α → Bool} {a : List α}
    (hf : ∀ l : List α, (∀ x ∈ l, x ∈ a) → ∃ b, f l = some b ∧ (b = true ↔ Adj le l)) {b : Bool} (h : Run f a b) :
    b = true ↔ Adj le a := by
  cases h with
  | serial _ h =>
    obtain ⟨c, h1, h2⟩ := hf a (fun _ h => h)
    rw [h] at h1; obtain rfl := Option.some.inj h1; exact h2
  | threaded s h hd =>
    have hmem : ∀ t, ∀ x ∈ chunk a t, x ∈ a := fun t x hx => List.mem_of_mem_drop (List.mem_of_mem_take hx)
    have i := reach_inv (good := fun t => Adj le (chunk a t)) (fun t _ => hf (chunk a t) (hmem t)) h
    rw [← chunks_adj]
    constructor
    · intro hfl t ht; exact i.done t (hd t ht) hfl
    · intro hall
      cases hfl : s.flag with
      | true => rfl
      | false =>
        obtain ⟨t, h1, h2⟩ := i.flag hfl
        exact absurd (hall t h1) h2

/-- Every state can be completed: no chunk blocks and no access is outside. -/
theorem exists_run {f : List α → Option Bool} {a : List α} (hf : ∀ t, ∃ b, f (chunk a t) = some b) {s : IS} (h : IReach f a s) :
    ∃ s', IReach f a s' ∧ ∀ t, t < (a.length + 16383) / 16384 → s'.st t = .done := by
  suffices H : ∀ m, m ≤ (a.length + 16383) / 16384 → ∃ s', IReach f a s' ∧ ∀ t, t < m → s'.st t = .done from
    H _ (Nat.le_refl _)
  intro m
  induction m with
  | zero => intro _; exact ⟨s, h, fun t ht => absurd ht (by omega)⟩
  | succ m ih =>
    intro hm
    obtain ⟨s1, h1, h2⟩ := ih (by omega)
    -- first finish chunk `m` if it is running, otherwise run it
    have leaveIt : ∀ s2, IReach f a s2 → s2.st m = .running → (∀ t, t < m → s2.st t = .done) →
        ∃ s', IReach f a s' ∧ ∀ t, t < m + 1 → s'.st t = .done := by
      intro s2 h3 h4 h5
      obtain ⟨b, hb⟩ := hf m
      refine ⟨_, h3.step (.leave s2 m b h4 hb), fun t ht => ?_⟩
      by_cases e : t = m
      · subst e; simp
      · simp only [Function.update_of_ne e]; exact h5 t (by omega)
    cases hst : s1.st m with
    | done => exact ⟨s1, h1, fun t ht => by
        by_cases e : t = m
        · subst e; exact hst
        · exact h2 t (by omega)⟩
    | running => exact leaveIt s1 h1 hst h2
    | idle =>
      cases hfl : s1.flag with
      | false =>
        refine ⟨_, h1.step (.skip s1 m (by omega) hst hfl), fun t ht => ?_⟩
        by_cases e : t = m
        · subst e; simp
        · simp only [Function.update_of_ne e]; exact h2 t (by omega)
      | true =>
        refine leaveIt _ (h1.step (.enter s1 m (by omega) hst hfl)) (by simp) fun t ht => ?_
        simp only [Function.update_of_ne (show t ≠ m by omega)]; exact h2 t ht

/-- In order at every neighbour iff in order everywhere. -/
theorem adj_iff {lt : α → α → Bool} (hw : SWO lt) (a : List α) : Adj (fun x y => !lt y x) a ↔ a.Pairwise fun x y => lt y x = false := by
  constructor
  · intro h
    have hc : a.IsChain fun x y => lt y x = false := by
      rw [List.isChain_iff_getElem]
      intro i hi
      have := h i a[i] a[i + 1] (List.getElem?_eq_getElem (by omega)) (List.getElem?_eq_getElem hi)
      simpa using this
    have : IsTrans α fun x y => lt y x = false := ⟨fun x y z h1 h2 => by
      cases h3 : lt z x with
      | false => rfl
      | true =>
        rcases hw.negTrans z y x h3 with h | h
        · rw [h2] at h; cases h
        · rw [h1] at h; cases h⟩
    exact List.isChain_iff_pairwise.1 hc
  · intro h i x y hx hy
    obtain ⟨h1, rfl⟩ := List.getElem?_eq_some_iff.1 hx
    obtain ⟨h2, rfl⟩ := List.getElem?_eq_some_iff.1 hy
    have := (List.pairwise_iff_getElem.1 h) i (i + 1) h1 h2 (by omega)
    simp [this]

end

end Pnumpy.IsSorted
