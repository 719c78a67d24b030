import Verif.Spec.TermsParSort
import Verif.Proofs.ParSort
import Mathlib.Algebra.Order.BigOperators.Group.Finset
/-
Progress of the parallel sort.
-/
namespace Pnumpy.ParSort
open Pnumpy.Sort
variable {α : Type}

theorem rank_le (x : NodeSt α) : rank x ≤ 3 := by cases x <;> simp [rank]

theorem ranks_update (f : Nat × Nat → NodeSt α) {k j : Nat} (v : NodeSt α) (h : Valid k j) :
    ∑ p ∈ nodes, rank (Function.update f (k, j) v p) + rank (f (k, j)) = ∑ p ∈ nodes, rank (f p) + rank v := by
  rw [← Finset.add_sum_erase _ _ (mem_nodes.2 h), ← Finset.add_sum_erase _ (fun p => rank (f p)) (mem_nodes.2 h)]
  have : ∑ x ∈ nodes.erase (k, j), rank (Function.update f (k, j) v x) = ∑ x ∈ nodes.erase (k, j), rank (f x) :=
    Finset.sum_congr rfl fun x hx => by rw [Function.update_of_ne (Finset.ne_of_mem_erase hx)]
  rw [this, Function.update_self]
  omega

variable {leaf mrg : LeafFn α} {n : Nat} {Q : Nat → Nat → List α → Prop}
  {src : Option (List α)} {a0 : List α}

theorem progress_le {s : PS α} (t : Tree s) : progress s ≤ 53 := by
  have h : ∑ p ∈ nodes, rank (s.st p) ≤ ∑ _p ∈ nodes, 3 := Finset.sum_le_sum fun p _ => rank_le _
  have h2 : ∑ _p ∈ nodes, 3 = 45 := by decide
  have := t.nx
  unfold progress
  omega

/-- Every step but `scribble` makes progress, and no node ever goes back. -/
theorem step_progress {s s' : PS α} (t : Tree s) (h : Step leaf mrg n src s s') :
    ((s'.st = s.st ∧ s'.next = s.next ∧ s'.completed = s.completed) ∨ progress s < progress s') ∧
    (∀ q, rank (s.st q) ≤ rank (s'.st q)) := by
  cases h with
  | claim h =>
    have hv : Valid 0 s.next := ⟨by omega, by simpa using h⟩
    have hi : s.st (0, s.next) = .idle := (t.leafIdle _ h).2 (Nat.le_refl _)
    refine ⟨Or.inr ?_, fun q => ?_⟩
    · have := ranks_update s.st (.running (seg (src.getD s.a) (nodeLo n 0 s.next) (nodeHi n 0 s.next))) hv
      unfold progress
      simp only [hi, rank] at this ⊢
      omega
    · by_cases e : q = (0, s.next)
      · subst e; rw [hi]; exact Nat.zero_le _
      · simp only [Function.update_of_ne e]; exact Nat.le_refl _
  | scribble k j snap a' w' h ha hw => exact ⟨Or.inl ⟨rfl, rfl, rfl⟩, fun q => Nat.le_refl _⟩
  | commit k j snap a' w' h hrun =>
    have hv := t.valid k j (by rw [h]; exact fun h => by cases h)
    refine ⟨Or.inr ?_, fun q => ?_⟩
    · have := ranks_update s.st .finished hv
      unfold progress
      simp only [h, rank] at this ⊢
      omega
    · by_cases e : q = (k, j)
      · subst e; simp only [h, Function.update_self, rank]; omega
      · simp only [Function.update_of_ne e]; exact Nat.le_refl _
  | goUp k j hk h hb =>
    have hv := t.valid k j (by rw [h]; exact fun h => by cases h)
    have hvp := hv.half hk
    have hpi := t.parent_idle hk hv (by rw [h]; exact fun h => by cases h)
    have hne : (k + 1, j / 2) ≠ (k, j) := fun e => by have := (Prod.mk.inj e).1; omega
    refine ⟨Or.inr ?_, fun q => ?_⟩
    · have h1 := ranks_update s.st .flagged hv
      have h2 := ranks_update (Function.update s.st (k, j) .flagged)
        (.running (seg s.a (nodeLo n (k + 1) (j / 2)) (nodeHi n (k + 1) (j / 2)))) hvp
      rw [Function.update_of_ne hne, hpi] at h2
      unfold progress
      simp only [h, rank] at h1 h2 ⊢
      omega
    · by_cases e2 : q = (k + 1, j / 2)
      · subst e2; rw [hpi]; exact Nat.zero_le _
      · simp only [Function.update_of_ne e2]
        by_cases e : q = (k, j)
        · subst e; simp only [h, Function.update_self, rank]; omega
        · simp only [Function.update_of_ne e]; exact Nat.le_refl _
  | wait k j hk h hb =>
    have hv := t.valid k j (by rw [h]; exact fun h => by cases h)
    refine ⟨Or.inr ?_, fun q => ?_⟩
    · have := ranks_update s.st .flagged hv
      unfold progress
      simp only [h, rank] at this ⊢
      omega
    · by_cases e : q = (k, j)
      · subst e; simp only [h, Function.update_self, rank]; omega
      · simp only [Function.update_of_ne e]; exact Nat.le_refl _

/-- As long as blocks are missing somebody can go on. -/
theorem exists_step (hc : NContract leaf mrg n a0 Q) (hn : 16 ≤ n) (h0 : a0.length = n)
    {s : PS α} (i : Inv n Q src a0 s) (h8 : s.completed ≠ 8) : ∃ s', Step leaf mrg n src s s' ∧ progress s < progress s' := by
  obtain ⟨t, c⟩ := i
  have key : (∃ s', Step leaf mrg n src s s' ∧ ¬ (s'.st = s.st ∧ s'.next = s.next ∧ s'.completed = s.completed)) → ∃ s', Step leaf mrg n src s s' ∧ progress s < progress s' := by
    rintro ⟨s', h1, h2⟩
    exact ⟨s', h1, (step_progress t h1).1.resolve_left h2⟩
  apply key
  by_cases hnx : s.next < 8
  · exact ⟨_, .claim s hnx, fun h => by have := h.2.1; dsimp only at this; omega⟩
  · have hb : busy s.st ≠ 0 := by have := t.cnt; have := t.nx; omega
    obtain ⟨⟨k, j⟩, hm, ha⟩ : ∃ p ∈ nodes, act p.1 (s.st p) ≠ 0 := by
      by_contra hcon
      apply hb
      unfold busy
      refine Finset.sum_eq_zero fun p hp => ?_
      by_contra hne
      exact hcon ⟨p, hp, hne⟩
    have hv := mem_nodes.1 hm
    dsimp only at ha
    have hst : ∀ x : NodeSt α, x ≠ s.st (k, j) → Function.update s.st (k, j) x ≠ s.st := by
      intro x hx e
      have := congrFun e (k, j)
      rw [Function.update_self] at this
      exact hx this
    cases hs : s.st (k, j) with
    | idle => rw [hs] at ha; simp [act] at ha
    | flagged => rw [hs] at ha; simp [act] at ha
    | running snap =>
      obtain ⟨a', w', h1, _⟩ := body_ok hc hn h0 c hv hs
      exact ⟨_, .commit s k j snap a' w' hs h1, fun h => hst _ (by rw [hs]; exact fun h => by cases h) h.1⟩
    | finished =>
      have hk : k < 3 := by
        by_contra hk
        rw [hs] at ha; simp [act, hk] at ha
      by_cases hbud : s.lvl k &&& buddy j = buddy j
      · refine ⟨_, .goUp s k j hk hs hbud, fun h => ?_⟩
        have := congrFun h.1 (k, j)
        have hne : (k, j) ≠ (k + 1, j / 2) := fun e => by have := (Prod.mk.inj e).1; omega
        simp only [Function.update_of_ne hne, Function.update_self, hs] at this
        cases this
      · exact ⟨_, .wait s k j hk hs hbud, fun h => hst _ (by rw [hs]; exact fun h => by cases h) h.1⟩

/-- Every run can be continued until all blocks are complete. -/
theorem exists_complete (hc : NContract leaf mrg n a0 Q) (hn : 16 ≤ n) (h0 : a0.length = n)
    (hsrc : ∀ v, src = some v → v = a0) {s0 : PS α} (hi : Inv n Q src a0 s0) {s : PS α} (hr : Reach leaf mrg n src s0 s) :
    ∃ s', Reach leaf mrg n src s0 s' ∧ Reach leaf mrg n src s s' ∧ s'.completed = 8 := by
  generalize hm : 53 - progress s = m
  induction m using Nat.strongRecOn generalizing s with
  | _ m ih =>
    have i := reach_inv hc hn h0 hsrc hi hr
    by_cases h8 : s.completed = 8
    · exact ⟨s, hr, .start, h8⟩
    · obtain ⟨s1, h1, h2⟩ := exists_step hc hn h0 i h8
      have h3 := progress_le (reach_inv hc hn h0 hsrc hi (hr.step h1)).tree
      obtain ⟨s', e1, e2, e3⟩ := ih (53 - progress s1) (by omega) (hr.step h1) rfl
      refine ⟨s', e1, ?_, e3⟩
      clear e1 e3 ih
      induction e2 with
      | start => exact .step .start h1
      | step _ hs ih => exact .step ih hs

/-- Once the function of a node has returned it stays so. -/
theorem reach_rank (hc : NContract leaf mrg n a0 Q) (hn : 16 ≤ n) (h0 : a0.length = n)
    (hsrc : ∀ v, src = some v → v = a0) {s s' : PS α} (hi : Inv n Q src a0 s) (hr : Reach leaf mrg n src s s') (q : Nat × Nat) :
    rank (s.st q) ≤ rank (s'.st q) := by
  induction hr with
  | start => exact Nat.le_refl _
  | step hr hs ih => exact Nat.le_trans ih ((step_progress (reach_inv hc hn h0 hsrc hi hr).tree hs).2 q)

end Pnumpy.ParSort
