import Verif.Spec.Combine
import Verif.Proofs.Reduce
import Mathlib.Data.List.Forall2
/- Which combinations a reduction performs, for any operation. -/
namespace Pnumpy.Reduce
open Pnumpy.Spec
variable {α : Type} {op : α → α → α}

theorem Combines.mono {d d' : Nat} {l : List α} {x : α} (h : Combines op d l x) (hd : d ≤ d') : Combines op d' l x := by
  induction h generalizing d' with
  | item => exact .item _ _
  | both _ _ ih1 ih2 =>
    obtain ⟨k, rfl⟩ : ∃ k, d' = k + 1 := ⟨d' - 1, by omega⟩
    exact .both (ih1 (by omega)) (ih2 (by omega))
  | reorder hp _ ih => exact .reorder hp (ih hd)

/-- Columns: partial result `m[i]` is a combination of the items `c[i]`. -/
abbrev Cols (op : α → α → α) (d : Nat) (c : List (List α)) (m : List α) : Prop := List.Forall₂ (Combines op d) c m

theorem Cols.mono {d d' : Nat} {c : List (List α)} {m : List α} (h : Cols op d c m) (hd : d ≤ d') : Cols op d' c m :=
  List.Forall₂.imp (fun _ _ h => Combines.mono h hd) h

theorem cols_items (d : Nat) : ∀ l : List α, Cols op d (l.map fun x => [x]) l
  | [] => .nil
  | x :: l => .cons (.item d x) (cols_items d l)

theorem flatten_items : ∀ l : List α, (l.map fun x => [x]).flatten = l
  | [] => rfl
  | x :: l => by simp [flatten_items l]

theorem cols_zip {d : Nat} {c0 c1 : List (List α)} {m0 m1 : List α} (h0 : Cols op d c0 m0) (h1 : Cols op d c1 m1) :
    Cols op (d + 1) (List.zipWith (· ++ ·) c0 c1) (List.zipWith op m0 m1) := by
  induction h0 generalizing c1 m1 with
  | nil => simpa using List.Forall₂.nil
  | cons h _ ih =>
    cases h1 with
    | nil => exact .nil
    | cons h' t' => exact .cons (.both h h') (ih t')

theorem flatten_zip : ∀ (c0 c1 : List (List α)), c0.length = c1.length →
    (List.zipWith (· ++ ·) c0 c1).flatten.Perm (c0.flatten ++ c1.flatten)
  | [], [], _ => .refl _
  | a :: c0, b :: c1, h => by
    simp only [List.zipWith_cons_cons, List.flatten_cons, List.append_assoc]
    refine List.Perm.append_left a ?_
    have := flatten_zip c0 c1 (by simpa using h)
    refine (List.Perm.append_left b this).trans ?_
    rw [← List.append_assoc, ← List.append_assoc]
    exact List.Perm.append_right _ List.perm_append_comm

theorem combines_fold : ∀ {d : Nat} {S : List α} {s : α} {c : List (List α)} {m : List α}, Combines op d S s → Cols op d c m →
    Combines op (d + m.length) (S ++ c.flatten) (fold op s m)
  | d, S, s, [], [], hs, _ => by simpa [fold] using hs
  | d, S, s, lx :: c, x :: m, hs, .cons h t => by
    rw [fold_cons]
    have h1 := combines_fold (.both h hs) (Cols.mono t (Nat.le_succ d))
    refine .reorder ?_ (Combines.mono h1 (by simp; omega))
    rw [List.flatten_cons, ← List.append_assoc]
    exact List.Perm.append_right _ List.perm_append_comm

theorem combines_fold_items {d : Nat} {S : List α} {s : α} (hs : Combines op d S s) (l : List α) :
    Combines op (d + l.length) (S ++ l) (fold op s l) := by
  have := combines_fold hs (cols_items (op := op) d l)
  rwa [flatten_items] at this

theorem reduceLoop_combines {xs : List α} {w : Nat} (hw : 0 < w) (pEnd p : Nat) (m0 m1 : List α) (hlen : pEnd ≤ xs.length)
    (hdvd : 2 * w ∣ pEnd - p) (hp : p ≤ pEnd) (d : Nat) (c0 c1 : List (List α)) (h0 : Cols op d c0 m0) (h1 : Cols op d c1 m1)
    (hl0 : m0.length = w) (hl1 : m1.length = w) (hinv : (c0.flatten ++ c1.flatten).Perm (xs.take p)) :
    ∃ a b ca cb, reduceLoop op xs w pEnd p m0 m1 = some (a, b, pEnd) ∧ a.length = w ∧ b.length = w ∧
      Cols op (d + (pEnd - p) / (2 * w)) ca a ∧ Cols op (d + (pEnd - p) / (2 * w)) cb b ∧
      (ca.flatten ++ cb.flatten).Perm (xs.take pEnd) := by
  rw [reduceLoop]
  split
  · rename_i hc
    have hle : 2 * w ≤ pEnd - p := Nat.le_of_dvd (by omega) hdvd
    rw [loadVec_eq (by omega), loadVec_eq (by omega)]
    simp only
    generalize hA : (xs.drop p).take w = A
    generalize hB : (xs.drop (p + w)).take w = B
    have hAl : A.length = w := by rw [← hA]; simp; omega
    have hBl : B.length = w := by rw [← hB]; simp; omega
    have hc0 := h0.length_eq
    have hc1 := h1.length_eq
    obtain ⟨a, b, ca, cb, e, ha, hb, hca, hcb, hper⟩ := reduceLoop_combines hw pEnd (p + 2 * w) (List.zipWith op m0 A) (List.zipWith op m1 B) hlen
      (by rw [Nat.sub_add_eq]; exact Nat.dvd_sub hdvd (Nat.dvd_refl _)) (by omega) (d + 1) _ _
      (cols_zip h0 (cols_items d A)) (cols_zip h1 (cols_items d B)) (by simp [hl0, hAl]) (by simp [hl1, hBl]) (by
        refine ((flatten_zip _ _ (by simp; omega)).append (flatten_zip _ _ (by simp; omega))).trans ?_
        rw [flatten_items, flatten_items]
        have htake : xs.take (p + 2 * w) = xs.take p ++ (A ++ B) := by
          rw [show p + 2 * w = p + (w + w) by omega, List.take_add, List.take_add, List.drop_drop, hA, hB]
        rw [htake]
        refine List.Perm.trans ?_ (List.Perm.append_right _ hinv)
        simp only [List.append_assoc]
        refine List.Perm.append_left _ ?_
        rw [← List.append_assoc, ← List.append_assoc]
        exact List.Perm.append_right _ List.perm_append_comm)
    have hdiv : d + 1 + (pEnd - (p + 2 * w)) / (2 * w) = d + (pEnd - p) / (2 * w) := by
      rw [Nat.div_eq_sub_div (b := 2 * w) (a := pEnd - p) (by omega) hle, Nat.sub_add_eq]
      omega
    rw [hdiv] at hca hcb
    exact ⟨a, b, ca, cb, e, ha, hb, hca, hcb, hper⟩
  · rename_i hc
    have : p = pEnd := by omega
    subst this
    refine ⟨m0, m1, c0, c1, rfl, hl0, hl1, ?_, ?_, hinv⟩ <;> simpa using ‹_›
termination_by pEnd - p

/-- How many combinations an item of a vectorised reduction of `n` items goes through at most. -/
def depth (w : Nat) (lay : Layout) (n : Nat) : Nat :=
  match lay with
  | .contiguous => n / (2 * w) + w + n % (2 * w)
  | _ => n

theorem reduceFast_combines {w : Nat} (hw : 0 < w) (lay : Layout) (xs : List α) (s : α)
    (hz : lay = .zero → ∀ x ∈ xs, xs[0]? = some x) :
    ∃ r, reduceFast op w lay xs s = some r ∧ Combines op (depth w lay xs.length) (s :: xs) r := by
  have hplain : Combines op xs.length (s :: xs) (fold op s xs) := by
    have := combines_fold_items (.item (op := op) 0 s) xs
    simpa using this
  unfold reduceFast depth
  cases lay with
  | zero =>
    cases xs with
    | nil => exact ⟨s, rfl, .item _ _⟩
    | cons x l =>
      simp only
      rw [zero_aux (x :: l) x rfl]
      have : x :: l = List.replicate (x :: l).length x := by
        rw [List.eq_replicate_iff]
        refine ⟨rfl, fun b hb => ?_⟩
        have := hz rfl b hb
        simpa using this.symm
      rw [← this]
      exact ⟨_, rfl, hplain⟩
  | strided => exact ⟨_, rfl, hplain⟩
  | contiguous =>
    simp only
    split
    · rename_i hn
      rw [loadVec_eq (show 0 + w ≤ xs.length by omega), loadVec_eq (show w + w ≤ xs.length by omega)]
      simp only [List.drop_zero]
      have hdm := Nat.div_add_mod xs.length (2 * w)
      have hpos : 0 < xs.length / (2 * w) := Nat.div_pos hn (by omega)
      have hge : 2 * w ≤ 2 * w * (xs.length / (2 * w)) := Nat.le_mul_of_pos_right _ hpos
      obtain ⟨a, b, ca, cb, e1, ha, hb, hca, hcb, hper⟩ := reduceLoop_combines (op := op) (xs := xs) hw (2 * w * (xs.length / (2 * w))) (2 * w)
        (xs.take w) ((xs.drop w).take w) (by omega)
        (Nat.dvd_sub (Nat.dvd_mul_right _ _) (Nat.dvd_refl _)) hge 0 _ _ (cols_items 0 _) (cols_items 0 _)
        (by simp; omega) (by simp; omega)
        (by rw [flatten_items, flatten_items, show 2 * w = w + w by omega, List.take_add])
      rw [e1]
      simp only
      rw [horizontal_eq _ w (by simp [ha, hb])]
      simp only [Option.map_some, reduceTail_eq]
      refine ⟨_, rfl, ?_⟩
      have hq : 0 + (2 * w * (xs.length / (2 * w)) - 2 * w) / (2 * w) + 1 = xs.length / (2 * w) := by
        rw [← Nat.mul_sub_one, Nat.mul_div_cancel_left _ (by omega)]
        omega
      have h1 := cols_zip hca hcb
      rw [hq] at h1
      have h2 := combines_fold (.item (op := op) (xs.length / (2 * w)) s) h1
      have h3 := combines_fold_items h2 (xs.drop (2 * w * (xs.length / (2 * w))))
      have hl : (List.zipWith op a b).length = w := by simp [ha, hb]
      have hr : (xs.drop (2 * w * (xs.length / (2 * w)))).length = xs.length % (2 * w) := by simp; omega
      rw [hl, hr] at h3
      refine .reorder ?_ h3
      have hlc : ca.length = cb.length := by rw [hca.length_eq, hcb.length_eq, ha, hb]
      refine (List.Perm.append_right _ (List.Perm.append_left [s] ((flatten_zip ca cb hlc).trans hper))).trans ?_
      rw [List.append_assoc, List.take_append_drop]
      exact .refl _
    · rename_i hn
      have h1 : xs.length / (2 * w) = 0 := Nat.div_eq_of_lt (by omega)
      have h2 : xs.length % (2 * w) = xs.length := Nat.mod_eq_of_lt (by omega)
      exact ⟨_, rfl, Combines.mono hplain (by omega)⟩

end Pnumpy.Reduce
