import Verif.Proofs.SortCode
import Verif.Proofs.TsoSort
import Verif.Proofs.ParArgSort
/-
The programs of the nodes of a parallel sort (Model/SortCode) are code for the functions they are meant to be.
-/
namespace Pnumpy.SortCode
open Pnumpy.Sort Pnumpy.ParSort Pnumpy.TsoSort Pnumpy.Props

variable {V A : Type}

/-- Code executed in place, alone: which cells it accesses and what it leaves. -/
theorem prog_run (lo wlo : Nat) (c : Code V A) : ∀ (a w : List V) (m : Loc → V) (r : A × List V × List V), runL c a w = some r →
    (∀ i x, a[i]? = some x → m (.arr (lo + i)) = x) → (∀ i x, w[i]? = some x → m (.ws (wlo + i)) = x) →
    (∀ l ∈ seqAcc (c.prog lo wlo) m, (∃ i, i < a.length ∧ l = .arr (lo + i)) ∨ ∃ i, i < w.length ∧ l = .ws (wlo + i)) ∧
    r.2.1.length = a.length ∧ r.2.2.length = w.length ∧ ∀ i x, r.2.1[i]? = some x → seqRun (c.prog lo wlo) m (.arr (lo + i)) = x := by
  induction c with
  | ret x =>
    intro a w m r h ha hw
    cases h
    exact ⟨fun l hl => by simp [Code.prog, seqAcc] at hl, rfl, rfl, fun i x hx => by simpa only [Code.prog, seqRun] using ha i x hx⟩
  | stuck => intro a w m r h; cases h
  | load c k ih =>
    intro a w m r h ha hw
    cases c with
    | arr i =>
      simp only [runL] at h
      obtain ⟨v, hv, h⟩ := Option.bind_eq_some_iff.1 h
      have hi := (List.getElem?_eq_some_iff.1 hv).1
      have hm := ha i v hv
      obtain ⟨h1, h2, h3, h4⟩ := ih v a w m r h ha hw
      simp only [Code.prog, place, seqAcc, seqRun, hm]
      refine ⟨fun l hl => ?_, h2, h3, h4⟩
      rcases List.mem_cons.1 hl with rfl | hl
      · exact Or.inl ⟨i, hi, rfl⟩
      · exact h1 l hl
    | ws i =>
      simp only [runL] at h
      obtain ⟨v, hv, h⟩ := Option.bind_eq_some_iff.1 h
      have hi := (List.getElem?_eq_some_iff.1 hv).1
      have hm := hw i v hv
      obtain ⟨h1, h2, h3, h4⟩ := ih v a w m r h ha hw
      simp only [Code.prog, place, seqAcc, seqRun, hm]
      refine ⟨fun l hl => ?_, h2, h3, h4⟩
      rcases List.mem_cons.1 hl with rfl | hl
      · exact Or.inr ⟨i, hi, rfl⟩
      · exact h1 l hl
  | store c v k ih =>
    intro a w m r h ha hw
    cases c with
    | arr i =>
      simp only [runL] at h
      obtain ⟨a1, hv, h⟩ := Option.bind_eq_some_iff.1 h
      unfold put at hv
      split at hv
      · rename_i hi
        cases hv
        obtain ⟨h1, h2, h3, h4⟩ := ih (a.set i v) w (fun x => if x = .arr (lo + i) then v else m x) r h
          (fun j x hx => by
            rw [List.getElem?_set] at hx
            split at hx
            · rename_i e; subst e
              cases hx; simp
            · rename_i e
              simp only [Loc.arr.injEq, show ¬ lo + j = lo + i by omega, if_false]
              exact ha j x hx)
          (fun j x hx => by simp only [reduceCtorEq, if_false]; exact hw j x hx)
        simp only [Code.prog, place, seqAcc, seqRun]
        rw [List.length_set] at h2
        refine ⟨fun l hl => ?_, h2, h3, h4⟩
        rcases List.mem_cons.1 hl with rfl | hl
        · exact Or.inl ⟨i, hi, rfl⟩
        · rcases h1 l hl with ⟨x, hx, e⟩ | ⟨x, hx, e⟩
          · exact Or.inl ⟨x, by rw [List.length_set] at hx; exact hx, e⟩
          · exact Or.inr ⟨x, hx, e⟩
      · cases hv
    | ws i =>
      simp only [runL] at h
      obtain ⟨w1, hv, h⟩ := Option.bind_eq_some_iff.1 h
      unfold put at hv
      split at hv
      · rename_i hi
        cases hv
        obtain ⟨h1, h2, h3, h4⟩ := ih a (w.set i v) (fun x => if x = .ws (wlo + i) then v else m x) r h
          (fun j x hx => by simp only [reduceCtorEq, if_false]; exact ha j x hx)
          (fun j x hx => by
            rw [List.getElem?_set] at hx
            split at hx
            · rename_i e; subst e
              cases hx; simp
            · rename_i e
              simp only [Loc.ws.injEq, show ¬ wlo + j = wlo + i by omega, if_false]
              exact hw j x hx)
        simp only [Code.prog, place, seqAcc, seqRun]
        rw [List.length_set] at h3
        refine ⟨fun l hl => ?_, h2, h3, h4⟩
        rcases List.mem_cons.1 hl with rfl | hl
        · exact Or.inr ⟨i, hi, rfl⟩
        · rcases h1 l hl with ⟨x, hx, e⟩ | ⟨x, hx, e⟩
          · exact Or.inl ⟨x, hx, e⟩
          · exact Or.inr ⟨x, by rw [List.length_set] at hx; exact hx, e⟩
      · cases hv

/-- The same when the workspace is the thread's own. -/
theorem progOwn_run (lo : Nat) (c : Code V A) : ∀ (a w : List V) (m : Loc → V) (r : A × List V × List V), runL c a w = some r →
    (∀ i x, a[i]? = some x → m (.arr (lo + i)) = x) →
    (∀ l ∈ seqAcc (c.progOwn lo w) m, ∃ i, i < a.length ∧ l = .arr (lo + i)) ∧
    r.2.1.length = a.length ∧ ∀ i x, r.2.1[i]? = some x → seqRun (c.progOwn lo w) m (.arr (lo + i)) = x := by
  induction c with
  | ret x =>
    intro a w m r h ha
    cases h
    exact ⟨fun l hl => by simp [Code.progOwn, seqAcc] at hl, rfl, fun i x hx => by simpa only [Code.progOwn, seqRun] using ha i x hx⟩
  | stuck => intro a w m r h; cases h
  | load c k ih =>
    intro a w m r h ha
    cases c with
    | arr i =>
      simp only [runL] at h
      obtain ⟨v, hv, h⟩ := Option.bind_eq_some_iff.1 h
      have hi := (List.getElem?_eq_some_iff.1 hv).1
      have hm := ha i v hv
      obtain ⟨h1, h2, h4⟩ := ih v a w m r h ha
      simp only [Code.progOwn, seqAcc, seqRun, hm]
      refine ⟨fun l hl => ?_, h2, h4⟩
      rcases List.mem_cons.1 hl with rfl | hl
      · exact ⟨i, hi, rfl⟩
      · exact h1 l hl
    | ws i =>
      simp only [runL] at h
      obtain ⟨v, hv, h⟩ := Option.bind_eq_some_iff.1 h
      simp only [Code.progOwn, hv]
      exact ih v a w m r h ha
  | store c v k ih =>
    intro a w m r h ha
    cases c with
    | arr i =>
      simp only [runL] at h
      obtain ⟨a1, hv, h⟩ := Option.bind_eq_some_iff.1 h
      unfold put at hv
      split at hv
      · rename_i hi
        cases hv
        obtain ⟨h1, h2, h4⟩ := ih (a.set i v) w (fun x => if x = .arr (lo + i) then v else m x) r h
          (fun j x hx => by
            rw [List.getElem?_set] at hx
            split at hx
            · rename_i e; subst e
              cases hx; simp
            · rename_i e
              simp only [Loc.arr.injEq, show ¬ lo + j = lo + i by omega, if_false]
              exact ha j x hx)
        simp only [Code.progOwn, seqAcc, seqRun]
        rw [List.length_set] at h2
        refine ⟨fun l hl => ?_, h2, h4⟩
        rcases List.mem_cons.1 hl with rfl | hl
        · exact ⟨i, hi, rfl⟩
        · obtain ⟨x, hx, e⟩ := h1 l hl
          exact ⟨x, by rw [List.length_set] at hx; exact hx, e⟩
      · cases hv
    | ws i =>
      simp only [runL] at h
      obtain ⟨w1, hv, h⟩ := Option.bind_eq_some_iff.1 h
      unfold put at hv
      split at hv
      · rename_i hi
        cases hv
        simp only [Code.progOwn, if_pos hi]
        exact ih a (w.set i v) m r h ha
      · cases hv

theorem storeAll_run (p : Prog V) (xs : List V) : ∀ (i : Nat) (m : Loc → V),
    seqRun (storeAll i xs p) m = seqRun p (fun l : Loc => match l with | .arr x => if i ≤ x then (xs[x - i]?).getD (m (.arr x)) else m (.arr x) | l => m l) ∧
    ∀ l, l ∈ seqAcc (storeAll i xs p) m ↔ (∃ x, x < xs.length ∧ l = .arr (i + x)) ∨
      l ∈ seqAcc p (fun l : Loc => match l with | .arr x => if i ≤ x then (xs[x - i]?).getD (m (.arr x)) else m (.arr x) | l => m l) := by
  induction xs with
  | nil =>
    intro i m
    have e : (fun l : Loc => match l with | .arr x => if i ≤ x then (([] : List V)[x - i]?).getD (m (.arr x)) else m (.arr x) | l => m l) = m := by
      funext l; cases l <;> simp
    rw [storeAll, e]
    exact ⟨rfl, fun l => by simp⟩
  | cons y ys ih =>
    intro i m
    obtain ⟨h1, h2⟩ := ih (i + 1) (fun x => if x = .arr i then y else m x)
    have e : (fun l : Loc => match l with | .arr x => if i + 1 ≤ x then (ys[x - (i + 1)]?).getD (if Loc.arr x = .arr i then y else m (.arr x)) else (if Loc.arr x = .arr i then y else m (.arr x)) | l => (if l = .arr i then y else m l)) =
        (fun l : Loc => match l with | .arr x => if i ≤ x then ((y :: ys)[x - i]?).getD (m (.arr x)) else m (.arr x) | l => m l) := by
      funext l
      cases l with
      | arr x =>
        simp only [Loc.arr.injEq]
        by_cases hx : i + 1 ≤ x
        · rw [if_pos hx, if_pos (show i ≤ x by omega), if_neg (show ¬ x = i by omega), show x - i = x - (i + 1) + 1 by omega]; rfl
        · rw [if_neg hx]
          by_cases hx' : x = i
          · subst hx'; simp
          · rw [if_neg hx', if_neg (show ¬ i ≤ x by omega)]
      | ws x => simp
      | other x => simp
    rw [storeAll, seqRun, seqAcc, h1]
    refine ⟨by rw [← e], fun l => ?_⟩
    rw [List.mem_cons, h2 l]
    rw [← e]
    constructor
    · rintro (h | ⟨x, hx, h⟩ | h)
      · exact Or.inl ⟨0, by simp, h⟩
      · exact Or.inl ⟨x + 1, by simp; omega, by rw [h]; congr 1; omega⟩
      · exact Or.inr h
    · rintro (⟨x, hx, h⟩ | h)
      · cases x with
        | zero => exact Or.inl h
        | succ x => exact Or.inr (Or.inl ⟨x, by simp at hx; omega, by rw [h]; congr 1; omega⟩)
      · exact Or.inr (Or.inr h)

end Pnumpy.SortCode
