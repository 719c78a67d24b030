import Verif.Model.Reduce
import Verif.Spec.Reduce
import Verif.Spec.Work
/- Proofs about reductions. -/
namespace Pnumpy.Reduce
open Pnumpy.Spec
variable {α : Type} {op : α → α → α}

theorem mapM_range_some {β : Type} {g : Nat → Option β} {h : Nat → β} :
    ∀ (n : Nat), (∀ i, i < n → g i = some (h i)) →
      (List.range n).mapM g = some ((List.range n).map h)
  | 0, _ => by simp
  | n + 1, hg => by
    rw [List.range_succ, List.mapM_append, mapM_range_some n fun i hi => hg i (by omega)]
    simp [hg n (by omega)]

theorem mapM_range_none {β : Type} {g : Nat → Option β} {n i : Nat} (hi : i < n) (hg : g i = none) :
    (List.range n).mapM g = none := by
  induction n with
  | zero => omega
  | succ n ih =>
    rw [List.range_succ, List.mapM_append]
    by_cases h : i < n
    · rw [ih h]; rfl
    · have : i = n := by omega
      subst this
      cases (List.range i).mapM g <;> simp [hg]

theorem loadVec_eq {xs : List α} {w p : Nat} (h : p + w ≤ xs.length) :
    loadVec xs w p = some ((xs.drop p).take w) := by
  unfold loadVec
  by_cases hw : w = 0
  · subst hw; simp
  · have hne : 0 < xs.length := by omega
    rw [mapM_range_some (h := fun j => xs[p + j]?.getD (xs[0])) w]
    · congr 1
      apply List.ext_getElem?
      intro i
      by_cases hi : i < w
      · rw [List.getElem?_map, List.getElem?_range hi, List.getElem?_take_of_lt hi, List.getElem?_drop]
        simp [List.getElem?_eq_getElem (show p + i < xs.length by omega)]
      · rw [List.getElem?_eq_none (by simp; omega), List.getElem?_eq_none (by simp; omega)]
    · intro i hi
      simp [List.getElem?_eq_getElem (show p + i < xs.length by omega)]

/-- Fold in the argument order used by the C++ loops. -/
def fold (op : α → α → α) (s : α) (l : List α) : α := l.foldl (fun acc x => op x acc) s

theorem fold_append (s : α) (a b : List α) : fold op s (a ++ b) = fold op (fold op s a) b := by
  simp [fold, List.foldl_append]

theorem fold_cons (s x : α) (a : List α) : fold op s (x :: a) = fold op (op x s) a := rfl

theorem fold_op (h : AssocComm op) (x s : α) (l : List α) : fold op (op x s) l = op x (fold op s l) := by
  induction l generalizing s with
  | nil => rfl
  | cons y l ih =>
    rw [fold_cons, fold_cons, ← ih]
    congr 1
    rw [← h.assoc, h.comm y x, h.assoc]

theorem fold_perm (h : AssocComm op) {a b : List α} (hp : a.Perm b) : ∀ s, fold op s a = fold op s b := by
  induction hp with
  | nil => intro s; rfl
  | cons x _ ih => intro s; rw [fold_cons, fold_cons]; exact ih _
  | swap x y l =>
    intro s
    rw [fold_cons, fold_cons, fold_cons, fold_cons]
    congr 1
    rw [← h.assoc, h.comm x y, h.assoc]
  | trans _ _ ih1 ih2 => intro s; rw [ih1, ih2]

theorem fold_zipWith (h : AssocComm op) : ∀ (a b : List α), a.length = b.length → ∀ s,
    fold op s (List.zipWith op a b) = fold op s (a ++ b)
  | [], [], _, s => rfl
  | x :: a, y :: b, hl, s => by
    have hp : ((x :: a) ++ (y :: b)).Perm (x :: y :: (a ++ b)) := by
      simp only [List.cons_append]
      exact List.Perm.cons x (List.perm_middle)
    rw [fold_perm h hp]
    simp only [List.zipWith_cons_cons, fold_cons]
    rw [fold_zipWith h a b (by simpa using hl)]
    congr 1
    rw [h.comm x y, h.assoc]

theorem fold_eq_spec (h : AssocComm op) (s : α) (xs : List α) : fold op s xs = reduceSpec op s xs := by
  unfold fold reduceSpec
  congr 1
  funext acc x
  exact h.comm x acc

theorem horizontal_aux (reg : List α) : ∀ (k : Nat), k ≤ reg.length → ∀ s,
    (List.range k).foldlM (fun acc i => (reg[i]?).map fun h => op h acc) s =
      some (fold op s (reg.take k))
  | 0, _, s => by simp [fold]
  | k + 1, hk, s => by
    rw [List.range_succ, List.foldlM_append, horizontal_aux reg k (by omega) s]
    simp only [Option.bind_eq_bind, Option.bind_some]
    rw [List.take_add_one, fold_append]
    simp [List.getElem?_eq_getElem (show k < reg.length by omega), fold]

theorem horizontal_eq (reg : List α) (k : Nat) (hk : k = reg.length) (s : α) :
    horizontal op reg k s = some (fold op s reg) := by
  unfold horizontal
  rw [horizontal_aux reg k (by omega) s, hk, List.take_length]

theorem horizontal_oob (reg : List α) (k : Nat) (hk : reg.length < k) (s : α) :
    horizontal op reg k s = none := by
  unfold horizontal
  obtain ⟨j, rfl⟩ : ∃ j, k = (reg.length + 1) + j := ⟨k - (reg.length + 1), by omega⟩
  rw [List.range_add, List.foldlM_append, List.range_succ, List.foldlM_append,
    horizontal_aux reg reg.length (Nat.le_refl _) s]
  simp

theorem reduceLoop_eq (h : AssocComm op) {xs : List α} {w : Nat} (hw : 0 < w) (pEnd p : Nat)
    (m0 m1 : List α) (hlen : pEnd ≤ xs.length) (hdvd : 2 * w ∣ pEnd - p) (hp : p ≤ pEnd)
    (h0 : m0.length = w) (h1 : m1.length = w)
    (hinv : ∀ s, fold op s (m0 ++ m1) = fold op s (xs.take p)) :
    ∃ a b, reduceLoop op xs w pEnd p m0 m1 = some (a, b, pEnd) ∧ a.length = w ∧ b.length = w ∧
      ∀ s, fold op s (a ++ b) = fold op s (xs.take pEnd) := by
  rw [reduceLoop]
  split
  · rename_i hc
    have hle : 2 * w ≤ pEnd - p := Nat.le_of_dvd (by omega) hdvd
    rw [loadVec_eq (by omega), loadVec_eq (by omega)]
    simp only
    have hl0 : ((xs.drop p).take w).length = w := by simp; omega
    have hl1 : ((xs.drop (p + w)).take w).length = w := by simp; omega
    refine reduceLoop_eq h hw pEnd (p + 2 * w) _ _ hlen ?_ (by omega) ?_ ?_ ?_
    · rw [Nat.sub_add_eq]; exact Nat.dvd_sub hdvd (Nat.dvd_refl _)
    · simp [h0, hl0]
    · simp [h1, hl1]
    · intro s
      have htake : xs.take (p + 2 * w) =
          xs.take p ++ ((xs.drop p).take w ++ (xs.drop (p + w)).take w) := by
        rw [show p + 2 * w = p + (w + w) by omega, List.take_add, List.take_add, List.drop_drop]
      rw [htake, fold_append s (xs.take p), ← hinv s, ← fold_append, fold_append,
        fold_zipWith h _ _ (by omega), fold_zipWith h _ _ (by omega), ← fold_append]
      apply fold_perm h
      simp only [List.append_assoc]
      refine List.Perm.append_left m0 ?_
      rw [← List.append_assoc, ← List.append_assoc]
      exact List.Perm.append_right _ List.perm_append_comm
  · rename_i hc
    have : p = pEnd := by omega
    subst this
    exact ⟨m0, m1, rfl, h0, h1, hinv⟩
termination_by pEnd - p

theorem reduceTail_eq (xs : List α) (p : Nat) (s : α) :
    reduceTail op xs p s = fold op s (xs.drop p) := rfl

/-- Reading the same element `k` times. -/
theorem zero_aux (xs : List α) (x : α) (hx : xs[0]? = some x) : ∀ (k : Nat) (s : α),
    (List.range k).foldlM (fun acc _ => (xs[0]?).map fun x => op x acc) s =
      some (fold op s (List.replicate k x))
  | 0, s => by simp [fold]
  | k + 1, s => by
    rw [List.range_succ, List.foldlM_append, zero_aux xs x hx k s]
    simp [hx, List.replicate_succ', fold]

/-- The vectorised reduction equals the left-to-right one. -/
theorem reduceFast_eq (h : AssocComm op) {w : Nat} (hw : 0 < w) (lay : Layout) (xs : List α) (s : α)
    (hz : lay = .zero → ∀ x ∈ xs, xs[0]? = some x) :
    reduceFast op w lay xs s = some (fold op s xs) := by
  unfold reduceFast
  cases lay with
  | zero =>
    cases xs with
    | nil => simp [fold]
    | cons x l =>
      simp only
      rw [zero_aux (x :: l) x rfl]
      have : x :: l = List.replicate (x :: l).length x := by
        rw [List.eq_replicate_iff]
        refine ⟨rfl, fun b hb => ?_⟩
        have := hz rfl b hb
        simpa using this.symm
      rw [← this]
  | strided => simp [reduceTail, fold]
  | contiguous =>
    simp only
    split
    · rename_i hn
      rw [loadVec_eq (show 0 + w ≤ xs.length by omega), loadVec_eq (show w + w ≤ xs.length by omega)]
      simp only [List.drop_zero]
      have hdm := Nat.div_add_mod xs.length (2 * w)
      have hpos : 0 < xs.length / (2 * w) := Nat.div_pos hn (by omega)
      have hge : 2 * w ≤ 2 * w * (xs.length / (2 * w)) := Nat.le_mul_of_pos_right _ hpos
      obtain ⟨a, b, e1, ha, hb, hf⟩ := reduceLoop_eq (xs := xs) h hw (2 * w * (xs.length / (2 * w))) (2 * w)
        (xs.take w) ((xs.drop w).take w) (by omega)
        (Nat.dvd_sub (Nat.dvd_mul_right _ _) (Nat.dvd_refl _)) hge
        (by simp; omega) (by simp; omega)
        (by intro s; rw [show 2 * w = w + w by omega, List.take_add])
      rw [e1]
      simp only
      rw [horizontal_eq _ w (by simp [ha, hb]), fold_zipWith h a b (by rw [ha, hb]), hf]
      simp only [Option.map_some, reduceTail_eq]
      rw [← fold_append, List.take_append_drop]
    · simp [reduceTail, fold]

/-! ### Block results -/

/-- Elements of block `b`. -/
def blockOf (xs : List α) (b : Nat) : List α := (xs.drop (Work.CHUNK * b)).take Work.CHUNK

theorem fold_blocks_assoc (xs : List α) (k : Nat) :
    ((List.range k).map (blockOf xs)).flatten = xs.take (Work.CHUNK * k) := by
  induction k with
  | zero => simp
  | succ k ih =>
    rw [List.range_succ, List.map_append, List.flatten_append, ih, Nat.mul_succ, List.take_add]
    simp [blockOf]

theorem take_chunks (xs : List α) (hn : 0 < xs.length) :
    xs.take (Work.CHUNK * chunks xs.length) = xs := by
  apply List.take_of_length_le
  unfold chunks Work.CHUNK
  omega

/-- Cell `b` of the result buffer after the block phase. -/
theorem blockPhase_cell (kernel : List α → α → Option α) (xs : List α) (sv : α)
    (calls : List (Nat × Nat)) (b : Nat) (v : Option α)
    (hmem : ∃ c ∈ calls, c.1 / Work.CHUNK = b)
    (hval : ∀ c ∈ calls, c.1 / Work.CHUNK = b → kernel ((xs.drop c.1).take c.2) sv = v) :
    blockPhase kernel xs sv calls b = v := by
  unfold blockPhase
  generalize (fun _ => none : Buffer α) = buf0
  suffices h : ∀ (l : List (Nat × Nat)) (buf0 : Buffer α), (∀ c ∈ l, c.1 / Work.CHUNK = b →
      kernel ((xs.drop c.1).take c.2) sv = v) → ((∃ c ∈ l, c.1 / Work.CHUNK = b) ∨ buf0 b = v) →
      (l.foldl (fun buf c => fun b => if b = c.1 / Work.CHUNK then
        kernel ((xs.drop c.1).take c.2) sv else buf b) buf0) b = v from
    h calls buf0 hval (Or.inl hmem)
  intro l
  induction l with
  | nil =>
    intro buf0 _ h
    rcases h with ⟨c, hc, _⟩ | h
    · simp at hc
    · exact h
  | cons c l ih =>
    intro buf0 hv h
    rw [List.foldl_cons]
    refine ih _ (fun c' hc' => hv c' (List.mem_cons_of_mem _ hc')) ?_
    by_cases hb : b = c.1 / Work.CHUNK
    · right
      simp only [if_pos hb]
      exact hv c (List.mem_cons_self) hb.symm
    · rcases h with ⟨c', hc', hcb⟩ | h
      · rcases List.mem_cons.mp hc' with rfl | hc'
        · exact absurd hcb.symm hb
        · exact Or.inl ⟨c', hc', hcb⟩
      · right
        simp only [if_neg hb]
        exact h

/-- The calls of a threaded ufunc: full 16384-element blocks, the last one shorter. -/
def BlockCalls (n : Nat) (calls : List (Nat × Nat)) : Prop :=
  (∀ c ∈ calls, ∃ b, c.1 = Work.CHUNK * b ∧ c.2 = min Work.CHUNK (n - c.1) ∧ c.1 < n) ∧
  (∀ b, Work.CHUNK * b < n → ∃ c ∈ calls, c.1 = Work.CHUNK * b)

theorem blockPhase_all (kernel : List α → α → Option α) (xs : List α) (sv : α)
    (calls : List (Nat × Nat)) (hcalls : BlockCalls xs.length calls) (b : Nat)
    (hb : b < chunks xs.length) (hn : 0 < xs.length) :
    blockPhase kernel xs sv calls b = kernel (blockOf xs b) sv := by
  have hb' : Work.CHUNK * b < xs.length := by unfold chunks Work.CHUNK at *; omega
  refine blockPhase_cell kernel xs sv calls b _ ?_ ?_
  · obtain ⟨c, hc, h⟩ := hcalls.2 b hb'
    exact ⟨c, hc, by rw [h]; exact Nat.mul_div_cancel_left b (by unfold Work.CHUNK; omega)⟩
  · intro c hc h
    obtain ⟨b', h1, h2, h3⟩ := hcalls.1 c hc
    have : b' = b := by
      rw [h1, Nat.mul_div_cancel_left b' (by unfold Work.CHUNK; omega)] at h
      exact h
    subst this
    unfold blockOf
    rw [← h1]
    congr 1
    rw [h2]
    by_cases hle : Work.CHUNK ≤ xs.length - c.1
    · rw [Nat.min_eq_left hle]
    · rw [Nat.min_eq_right (by omega), List.take_of_length_le (by simp),
        List.take_of_length_le (by simp; omega)]

theorem fold_flatten_start (h : AssocComm op) {e : α} (s : α) (he : op s e = s)
    (ls : List (List α)) : fold op s (ls.map (fold op e)) = fold op s ls.flatten := by
  induction ls generalizing s with
  | nil => rfl
  | cons l ls ih =>
    rw [List.map_cons, fold_cons, List.flatten_cons, fold_append]
    have key : op (fold op e l) s = fold op s l := by
      have : fold op s l = fold op (op s e) l := by rw [he]
      rw [this, fold_op h, h.comm]
    rw [key, ih]
    rw [h.comm, ← fold_op h, h.comm, he]

end Pnumpy.Reduce
