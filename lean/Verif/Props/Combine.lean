import Verif.Proofs.Combine
import Verif.Proofs.Round
import Verif.Props.ReduceTable
import Verif.Props.TrigValues
/-
Property theorem C103: float64 sums and products.
-/
namespace Pnumpy.Props
open Pnumpy.Spec Pnumpy.Reduce Pnumpy.Elem Pnumpy.OpTables Pnumpy.Ieee
variable {α : Type}

/-! ### Every item is combined exactly once, whatever the operation -/

/-- Combinations an item passes through when `n` items are reduced with `w` lanes: `n/(2w) + 3w` for a contiguous array, else `n`. -/
def passes (w : Nat) : Layout → Nat → Nat
  | .contiguous, n => n / (2 * w) + 3 * w
  | _, n => n

/-- **C103**, serial: for an operation that need not be associative or commutative, the vectorised reduction combines the start value and every
item exactly once. -/
theorem C103_serial (op : α → α → α) (w : Nat) (hw : 0 < w) (lay : Layout) (xs : List α) (start : α)
    (hz : lay = .zero → ∀ x ∈ xs, xs[0]? = some x) :
    ∃ r, reduceFast op w lay xs start = some r ∧
      Combines op (passes w lay xs.length) (start :: xs) r := by
  obtain ⟨r, h1, h2⟩ := reduceFast_combines (op := op) hw lay xs start hz
  refine ⟨r, h1, Combines.mono h2 ?_⟩
  have := Nat.mod_lt xs.length (show 0 < 2 * w by omega)
  cases lay <;> simp only [depth, passes] <;> omega

/-- Case: six numbers, registers of two. -/
example : ∃ r, reduceFast (fun a b : Int => a + b) 2 .contiguous [1, 2, 3, 4, 5, 6] 0 = some r ∧
    Combines (fun a b : Int => a + b) (passes 2 .contiguous 6) [0, 1, 2, 3, 4, 5, 6] r :=
  C103_serial (fun a b : Int => a + b) 2 (by decide) .contiguous [1, 2, 3, 4, 5, 6] 0 (by simp)

theorem perm_starts (s : α) : ∀ ls : List (List α), (ls.map (s :: ·)).flatten.Perm (List.replicate ls.length s ++ ls.flatten)
  | [] => .refl _
  | l :: ls => by
    simp only [List.map_cons, List.flatten_cons, List.length_cons, List.replicate_succ, List.cons_append]
    refine List.Perm.cons s ?_
    refine (List.Perm.append_left l (perm_starts s ls)).trans ?_
    rw [← List.append_assoc, ← List.append_assoc]
    exact List.Perm.append_right _ List.perm_append_comm

theorem subst_leaves {op : α → α → α} {d d' : Nat} {l : List α} {r : α} (h : Combines op d' l r) :
    ∀ {ls : List (List α)}, Cols op d ls l → Combines op (d + d') ls.flatten r := by
  induction h with
  | item d' x =>
    intro ls hc
    cases hc with
    | cons h t =>
      cases t
      simpa using Combines.mono h (by omega)
  | @both d' l l' x y _ _ ih1 ih2 =>
    intro ls hc
    have h1 := List.forall₂_take_append ls l l' hc
    have h2 := List.forall₂_drop_append ls l l' hc
    have := Combines.both (ih1 h1) (ih2 h2)
    rw [← List.flatten_append, List.take_append_drop] at this
    exact this
  | @reorder d' l l' x hp _ ih =>
    intro ls hc
    obtain ⟨ls', hp', hc'⟩ : ∃ ls' : List (List α), ls'.Perm ls ∧ Cols op d ls' l := by
      have : Relation.Comp (List.Forall₂ (Combines op d)) List.Perm ls l := ⟨l', hc, hp.symm⟩
      rw [List.forall₂_comp_perm_eq_perm_comp_forall₂] at this
      obtain ⟨ls', h1, h2⟩ := this
      exact ⟨ls', h1.symm, h2⟩
    exact .reorder (hp'.flatten) (ih hc')

/-- **C103**, threaded: the result is the same for every thread limit, wake-up setting and schedule, and combines the start value of the call, the
start value of every 16384-item block and every item exactly once. -/
theorem C103_threaded (op : α → α → α) (w : Nat) (hw : 0 < w) (lay : Layout) (special : Option α) (xs : List α) (init : α) (hn : 0 < xs.length)
    (hz : lay = .zero → ∀ x ∈ xs, ∀ y ∈ xs, x = y) :
    ∃ r, (∀ (req : Int) (mw zz : Nat) (sched : List Nat), (Work.exec (ufuncItem xs.length req mw zz) sched).pc 0 = .returned →
        threadedFast op w lay special xs init (Work.kernelCalls (ufuncItem xs.length req mw zz)
          (Work.exec (ufuncItem xs.length req mw zz) sched)) = some r) ∧
      Combines op (passes w lay 16384 + passes w .contiguous (xs.length / 16384 + 1))
        (init :: (List.replicate (1 + (xs.length - 1) / 16384) (special.getD init) ++ xs)) r := by
  have hz' : ∀ l : List α, (∀ x ∈ l, x ∈ xs) → lay = .zero → ∀ x ∈ l, l[0]? = some x := by
    intro l hl hlay x hx
    cases l with
    | nil => cases hx
    | cons y l => simp [hz hlay y (hl y (by simp)) x (hl x hx)]
  have hblk : ∀ b, ∃ r, reduceFast op w lay (blockOf xs b) (special.getD init) = some r ∧
      Combines op (depth w lay (blockOf xs b).length) (special.getD init :: blockOf xs b) r := fun b =>
    reduceFast_combines hw lay _ _ (hz' _ fun x hx => List.mem_of_mem_drop (List.mem_of_mem_take hx))
  choose f hf1 hf2 using hblk
  obtain ⟨r, hr1, hr2⟩ := reduceFast_combines (op := op) hw .contiguous ((List.range (chunks xs.length)).map f) init (by simp)
  refine ⟨r, ?_, ?_⟩
  · intro req mw zz sched hret
    have hcalls := blockCalls xs.length req mw zz sched hret
    unfold threadedFast
    simp only
    rw [mapM_range_some (h := f)]
    · exact hr1
    · intro b hb
      rw [blockPhase_all _ _ _ _ hcalls b hb hn, hf1]
  · have hD : ∀ b, depth w lay (blockOf xs b).length ≤ passes w lay 16384 := by
      intro b
      have hl : (blockOf xs b).length ≤ 16384 := by unfold blockOf Work.CHUNK; simp
      cases lay <;> simp only [depth, passes]
      · have h1 := Nat.div_le_div_right (c := 2 * w) hl
        have h2 := Nat.mod_lt (blockOf xs b).length (show 0 < 2 * w by omega)
        omega
      · exact hl
      · exact hl
    have hcols : Cols op (passes w lay 16384) ([init] :: ((List.range (chunks xs.length)).map fun b => special.getD init :: blockOf xs b))
        (init :: (List.range (chunks xs.length)).map f) := by
      refine .cons (.item _ _) ?_
      induction (List.range (chunks xs.length)) with
      | nil => exact .nil
      | cons b bs ih => exact .cons (Combines.mono (hf2 b) (hD b)) ih
    have h1 := subst_leaves hr2 hcols
    have hdep : depth w .contiguous ((List.range (chunks xs.length)).map f).length ≤ passes w .contiguous (xs.length / 16384 + 1) := by
      simp only [depth, passes, List.length_map, List.length_range]
      have h2 := Nat.mod_lt (chunks xs.length) (show 0 < 2 * w by omega)
      have h3 : chunks xs.length ≤ xs.length / 16384 + 1 := by unfold chunks Work.CHUNK; omega
      have h4 := Nat.div_le_div_right (c := 2 * w) h3
      omega
    refine .reorder ?_ (Combines.mono h1 (Nat.add_le_add_left hdep _))
    rw [List.flatten_cons]
    refine List.Perm.cons init ?_
    have h5 := perm_starts (special.getD init) ((List.range (chunks xs.length)).map (blockOf xs))
    rw [List.map_map, blocks_flatten xs hn] at h5
    simpa [chunks, Work.CHUNK, Function.comp_def] using h5

/-- Case: 70000 numbers (five blocks), registers of four; one result for all schedules. -/
example (xs : List Int) (hx : xs.length = 70000) : ∃ r, ∀ (req : Int) (mw zz : Nat) (sched : List Nat),
      (Work.exec (ufuncItem xs.length req mw zz) sched).pc 0 = .returned →
        threadedFast (fun a b : Int => a + b) 4 .contiguous (some 0) xs 7 (Work.kernelCalls (ufuncItem xs.length req mw zz)
          (Work.exec (ufuncItem xs.length req mw zz) sched)) = some r :=
  (C103_threaded (fun a b : Int => a + b) 4 (by decide) .contiguous (some 0) xs 7 (by omega) (by simp)).imp fun _ h => h.1

end Pnumpy.Props
