import Verif.Model.OpTables
import Verif.Proofs.Simd
import Verif.Props.Dispatch
import Verif.Props.IntOps
/-
Lemmas for the operation tables: runs under a map of the element values, and lanes of the register operations.
-/
namespace Pnumpy.Elem
variable {α β : Type}

/-- Running with mapped values. -/
theorem run_hom {f : α → α → α} {g : β → β → β} {φ : α → β} (h : ∀ x y, φ (f x y) = g (φ x) (φ y)) :
    ∀ (es : List (Nat × Acc)) (s : MState α),
      run g ⟨φ ∘ s.mem, fun c l => (s.reg c l).map φ⟩ es =
        (run f s es).map fun s' => ⟨φ ∘ s'.mem, fun c l => (s'.reg c l).map φ⟩ := by
  intro es
  induction es with
  | nil => intro s; rfl
  | cons e es ih =>
    intro s
    obtain ⟨c, a⟩ := e
    cases a with
    | load l x y =>
      simp only [run, stepAcc, Option.bind_some]
      rw [← ih]
      congr 2
      funext c' l'
      by_cases hc : c' = c ∧ l' = l <;> simp [hc, h]
    | store l a =>
      simp only [run, stepAcc]
      cases hr : s.reg c l with
      | none => simp
      | some v =>
        simp only [Option.map_some, Option.bind_some]
        rw [← ih]
        congr 2
        funext a'
        simp only [Function.comp]
        split <;> rfl

theorem runMem_hom {f : α → α → α} {g : β → β → β} {φ : α → β} (h : ∀ x y, φ (f x y) = g (φ x) (φ y))
    (es : List (Nat × Acc)) (m : Int → α) : runMem g (φ ∘ m) es = (runMem f m es).map (φ ∘ ·) := by
  have := run_hom h es ⟨m, fun _ _ => none⟩
  unfold runMem
  simp only [Option.map_none] at this
  rw [this]
  cases run f ⟨m, fun _ _ => none⟩ es <;> rfl

/-- A cell no store goes to keeps its value. -/
theorem run_frame {f : α → α → α} {a : Int} : ∀ (es : List (Nat × Acc)) (s s' : MState α),
    run f s es = some s' → (∀ c l, (c, Acc.store l a) ∉ es) → s'.mem a = s.mem a := by
  intro es
  induction es with
  | nil => intro s s' h _; simp only [run, Option.some.injEq] at h; rw [h]
  | cons e es ih =>
    intro s s' h hn
    obtain ⟨c, b⟩ := e
    have hn' : ∀ c l, (c, Acc.store l a) ∉ es := fun c l hc => hn c l (List.mem_cons_of_mem _ hc)
    cases b with
    | load l x y =>
      simp only [run, stepAcc, Option.bind_some] at h
      have := ih _ _ h hn'
      simpa using this
    | store l b =>
      simp only [run, stepAcc] at h
      cases hr : s.reg c l with
      | none => simp [hr] at h
      | some v =>
        simp only [hr, Option.bind_some] at h
        rw [ih _ _ h hn']
        simp only
        rw [if_neg]
        rintro rfl
        exact hn c l (by simp)

/-- A cell that is stored to when every operation gives `true` holds `true` at the end. -/
theorem run_marks {a : Int} : ∀ (es : List (Nat × Acc)) (s s' : MState Bool),
    run (fun _ _ => true) s es = some s' → (∀ c l v, s.reg c l = some v → v = true) →
    (s.mem a = true ∨ ∃ c l, (c, Acc.store l a) ∈ es) → s'.mem a = true := by
  intro es
  induction es with
  | nil =>
    intro s s' h _ hm
    simp only [run, Option.some.injEq] at h
    rcases hm with hm | ⟨c, l, hm⟩
    · rw [← h]; exact hm
    · cases hm
  | cons e es ih =>
    intro s s' h hreg hm
    obtain ⟨c, b⟩ := e
    cases b with
    | load l x y =>
      simp only [run, stepAcc, Option.bind_some] at h
      refine ih _ _ h ?_ ?_
      · intro c' l' v hv
        simp only at hv
        split at hv
        · exact (Option.some.inj hv).symm
        · exact hreg _ _ _ hv
      · rcases hm with hm | ⟨c', l', hm⟩
        · exact Or.inl hm
        · exact Or.inr ⟨c', l', by simpa using hm⟩
    | store l b =>
      simp only [run, stepAcc] at h
      cases hr : s.reg c l with
      | none => simp [hr] at h
      | some v =>
        simp only [hr, Option.bind_some] at h
        refine ih _ _ h hreg ?_
        have hv := hreg _ _ _ hr
        by_cases hab : a = b
        · left; simp [hab, hv]
        · rcases hm with hm | ⟨c', l', hm⟩
          · left; simp [hab, hm]
          · right
            refine ⟨c', l', ?_⟩
            rcases List.mem_cons.mp hm with he | he
            · cases he; exact absurd rfl hab
            · exact he

end Pnumpy.Elem

namespace Pnumpy.OpTables
open Pnumpy.Simd

theorem lane_lanes2 {w : Nat} (f : BitVec w → BitVec w → BitVec w) (x y : BitVec 256) {d : Nat} (h : w * d + w ≤ 256) :
    lane w (lanes2 w f x y) d = f (lane w x d) (lane w y d) := lane_ofLanes _ h
theorem lane_lanes1 {w : Nat} (f : BitVec w → BitVec w) (x : BitVec 256) {d : Nat} (h : w * d + w ≤ 256) :
    lane w (lanes1 w f x) d = f (lane w x d) := lane_ofLanes _ h
theorem lane_set1 {w : Nat} (v : BitVec w) {d : Nat} (h : w * d + w ≤ 256) : lane w (set1 256 v) d = v := lane_ofLanes _ h
theorem lane_zero (w d : Nat) : lane w (0 : BitVec 256) d = 0 := by
  apply BitVec.eq_of_getLsbD_eq
  intro j hj
  rw [getLsbD_lane]; simp

theorem lane_MUL256u64 (x y : BitVec 256) {d : Nat} (h : 64 * d + 64 ≤ 256) :
    lane 64 (MUL256u64 x y) d = IntOps.mulOp (lane 64 x d) (lane 64 y d) := by
  rw [← Props.C12_vector_equals_scalar]
  unfold MUL256u64
  simp only [lane_lanes2 _ _ _ h, lane_lanes1 _ _ h, lane_and, lane_set1 _ h]
  rfl

end Pnumpy.OpTables
