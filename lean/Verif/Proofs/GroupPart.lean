import Verif.Model.GroupPart
import Verif.Spec.GroupPart
import Verif.Proofs.Group
/-
The tasks of the partitioned grouping: each touches only its own partition; what the two phases compute.
-/
namespace Pnumpy.GroupPart
open Pnumpy.Sort Pnumpy.Str Pnumpy.Group Pnumpy.Spec

/-! ### Locality -/

theorem put_append {α : Type} {l l' r : List α} {i : Nat} {x : α} (h : put l i x = some l') : put (l ++ r) i x = some (l' ++ r) := by
  unfold put at h ⊢
  split at h
  · rename_i hi
    rw [if_pos (by rw [List.length_append]; omega), List.set_append_left _ _ hi]
    rw [Option.some.injEq] at h ⊢; rw [h]
  · cases h

theorem get_append {α : Type} {l r : List α} {i : Nat} {x : α} (h : l[i]? = some x) : (l ++ r)[i]? = some x := by
  rw [List.getElem?_append_left (List.getElem?_eq_some_iff.1 h).1]; exact h

section
variable {α : Type} {eq : α → α → Option Bool} {base sh : Nat}

/-- The state with more cells behind the arrays. -/
def ext (s : GS α) (g f c : List Nat) : GS α := { s with group := s.group ++ g, first := s.first ++ f, count := s.count ++ c }

theorem step_local {v v2 : List α} {s s' : GS α} {ci : Nat} (g f c : List Nat) (h : step eq v base sh s ci = some s') :
    step eq (v ++ v2) base sh (ext s g f c) ci = some (ext s' g f c) := by
  unfold step at h ⊢
  simp only [Option.bind_eq_bind, Option.bind_eq_some_iff] at h
  obtain ⟨val2, h1, b, h2, h3⟩ := h
  have e1 : (v ++ v2)[ci]? = some val2 := get_append h1
  have e2 : eq (ext s g f c).val val2 = some b := h2
  simp only [Option.bind_eq_bind, e1, Option.bind_some, e2]
  cases b
  · simp only [Bool.false_eq_true, if_false, Option.bind_eq_some_iff] at h3 ⊢
    obtain ⟨count, h4, first, h5, group, h6, h7⟩ := h3
    refine ⟨count ++ c, put_append h4, first ++ f, put_append h5, group ++ g, put_append h6, ?_⟩
    rw [Option.some.injEq] at h7 ⊢; subst h7; rfl
  · simp only [if_true, Option.bind_eq_some_iff] at h3 ⊢
    obtain ⟨group, h6, h7⟩ := h3
    refine ⟨group ++ g, put_append h6, ?_⟩
    rw [Option.some.injEq] at h7 ⊢; subst h7; rfl

theorem loop_local {v v2 : List α} (g f c : List Nat) : ∀ (l : List Nat) {s s' : GS α}, loop eq v base sh s l = some s' →
    loop eq (v ++ v2) base sh (ext s g f c) l = some (ext s' g f c)
  | [], s, s', h => by rw [loop, Option.some.injEq] at h; subst h; rfl
  | ci :: l, s, s', h => by
    rw [loop, Option.bind_eq_bind, Option.bind_eq_some_iff] at h
    obtain ⟨s1, h1, h2⟩ := h
    rw [loop, step_local g f c h1]
    exact loop_local g f c l h2

theorem zeroBin_append {l l' r : List Nat} (h : zeroBin sh l = some l') : zeroBin sh (l ++ r) = some (l' ++ r) := by
  unfold zeroBin at h ⊢
  split at h
  · rename_i e; rw [if_pos e]; exact put_append h
  · rename_i e; rw [if_neg e]; rw [Option.some.injEq] at h ⊢; rw [h]

/-- Grouping a partition inside longer arrays. -/
theorem groupAt_local {v v2 : List α} {ix ix2 g f c g2 f2 c2 : List Nat} {u : Nat} {G F C : List Nat}
    (h : groupIndex eq v base sh ix g f c = some (u, G, F, C)) :
    groupAt eq (v ++ v2) base sh ix.length (ix ++ ix2) (g ++ g2) (f ++ f2) (c ++ c2) = some (u, G ++ g2, F ++ f2, C ++ c2) := by
  unfold groupIndex at h
  simp only [Option.bind_eq_bind, Option.bind_eq_some_iff] at h
  obtain ⟨c0, h1, val, h2, cnt, h3, fst, h4, grp, h5, s, h6, cnt', h7, h8⟩ := h
  unfold groupAt
  have e1 : (ix ++ ix2)[0]? = some c0 := get_append h1
  have e2 : (v ++ v2)[c0]? = some val := get_append h2
  have e6 := loop_local (v2 := v2) g2 f2 c2 _ h6
  have e6' : loop eq (v ++ v2) base sh { group := grp ++ g2, first := fst ++ f2, count := cnt ++ c2, cur := 0, cnt := 1, val } ix.tail = some (ext s g2 f2 c2) := e6
  simp only [Option.bind_eq_bind, e1, Option.bind_some, e2, zeroBin_append h3, put_append h4, put_append h5]
  rw [if_pos (by simp), List.take_left' rfl, e6']
  simp only [Option.bind_some, ext, put_append h7]
  rw [Option.some.injEq] at h8 ⊢
  simp only [Prod.mk.injEq] at h8
  obtain ⟨rfl, rfl, rfl, rfl⟩ := h8
  rfl
end

/-! ### Slices -/

theorem slice_get {α : Type} (l : List α) (a b i : Nat) : (slice l (a, b))[i]? = if i < b - a then l[a + i]? else none := by
  unfold slice
  rw [List.getElem?_take]
  split
  · rw [List.getElem?_drop]
  · rfl

theorem slice_length {α : Type} {l : List α} {a b : Nat} (h : b ≤ l.length) : (slice l (a, b)).length = b - a := by
  simp only [slice, List.length_take, List.length_drop]; omega

/-- Replace the cells from `a` on by `g`. -/
def over {α : Type} (l : List α) (a : Nat) (g : List α) : List α := l.take a ++ (g ++ l.drop (a + g.length))

theorem over_get {α : Type} {l g : List α} {a : Nat} (h : a + g.length ≤ l.length) (i : Nat) :
    (over l a g)[i]? = if a ≤ i ∧ i < a + g.length then g[i - a]? else l[i]? := by
  unfold over
  have ht : (l.take a).length = a := by rw [List.length_take]; omega
  by_cases h1 : i < a
  · rw [List.getElem?_append_left (by omega), if_neg (by omega), List.getElem?_take, if_pos h1]
  · rw [List.getElem?_append_right (by omega), ht]
    by_cases h2 : i < a + g.length
    · rw [List.getElem?_append_left (by omega), if_pos (by omega)]
    · rw [List.getElem?_append_right (by omega), if_neg (by omega), List.getElem?_drop]
      congr 1; omega

theorem over_length {α : Type} {l g : List α} {a : Nat} (h : a + g.length ≤ l.length) : (over l a g).length = l.length := by
  simp only [over, List.length_append, List.length_take, List.length_drop]; omega

theorem slice_over_self {α : Type} {l g : List α} {a b : Nat} (hl : g.length = b - a) (h : a + g.length ≤ l.length) : slice (over l a g) (a, b) = g := by
  apply List.ext_getElem?
  intro i
  rw [slice_get, over_get h]
  by_cases hi : i < b - a
  · rw [if_pos hi, if_pos (by omega)]; congr 1; omega
  · rw [if_neg hi, List.getElem?_eq_none (by omega)]

theorem slice_over_ne {α : Type} {l g : List α} {a a' b' : Nat} (h : a + g.length ≤ l.length) (hd : b' ≤ a ∨ a + g.length ≤ a') :
    slice (over l a g) (a', b') = slice l (a', b') := by
  apply List.ext_getElem?
  intro i
  rw [slice_get, slice_get, over_get h]
  by_cases hi : i < b' - a'
  · rw [if_pos hi, if_pos hi, if_neg (by omega)]
  · rw [if_neg hi, if_neg hi]

/-- `l` cut at a slice. -/
theorem drop_slice {α : Type} (l : List α) (a b : Nat) (h : a ≤ b) : l.drop a = slice l (a, b) ++ l.drop b := by
  unfold slice
  have : l.drop b = (l.drop a).drop (b - a) := by rw [List.drop_drop]; congr 1; omega
  rw [this, List.take_append_drop]

/-- What the first task of a partition does. -/
theorem task1_eq {α : Type} {eq : α → α → Option Bool} {v : List α} {sh : Nat} {cuts : List Nat} {s : St} {t a b c u : Nat} {G F C : List Nat}
    (ha : start cuts t = some a) (hb : cuts[t]? = some b) (hab : a ≤ b) (hv : b ≤ v.length) (hix : b ≤ s.ix.length) (hk : b ≤ s.keys.length)
    (hf : b ≤ s.first.length) (hbc : b ≤ c) (hc : c ≤ s.count.length) (hu : t < s.uniq.length)
    (h : groupIndex eq (slice v (a, b)) 0 sh (slice s.ix (a, b)) (slice s.keys (a, b)) (slice s.first (a, b)) (slice s.count (a, c)) = some (u, G, F, C))
    (hG : G.length = b - a) (hF : F.length = b - a) (hC : C.length = c - a) :
    task1 eq v sh cuts s t = some { s with keys := over s.keys a G, first := over s.first a F, count := over s.count a C, uniq := s.uniq.set t u } := by
  unfold task1
  have h' := groupAt_local (v2 := v.drop b) (ix2 := s.ix.drop b) (g2 := s.keys.drop b) (f2 := s.first.drop b) (c2 := s.count.drop c) h
  rw [← drop_slice _ _ _ hab, ← drop_slice _ _ _ hab, ← drop_slice _ _ _ hab, ← drop_slice _ _ _ hab, ← drop_slice _ _ _ (by omega), slice_length hix] at h'
  simp only [Option.bind_eq_bind, ha, Option.bind_some, hb, h', put, if_pos hu]
  congr 1
  simp only [over, hG, hF, hC]
  rw [show a + (b - a) = b by omega, show a + (c - a) = c by omega]

/-! ### The loops of the second phase -/

theorem addAll_get (d : Nat) : ∀ (n a : Nat) (l : List Nat), a + n ≤ l.length → ∃ l', addAll d a n l = some l' ∧ l'.length = l.length ∧
    ∀ i, l'[i]? = if a ≤ i ∧ i < a + n then l[i]?.map (· + d) else l[i]?
  | 0, a, l, h => ⟨l, rfl, rfl, fun i => by rw [if_neg (by omega)]⟩
  | n + 1, a, l, h => by
    obtain ⟨l', h1, h2, h3⟩ := addAll_get d n (a + 1) (l.set a (l[a] + d)) (by rw [List.length_set]; omega)
    refine ⟨l', ?_, by rw [h2, List.length_set], fun i => ?_⟩
    · rw [addAll, List.getElem?_eq_getElem (by omega)]
      simp only [Option.bind_eq_bind, Option.bind_some, put]
      rw [if_pos (by omega)]; exact h1
    · rw [h3 i]
      by_cases hi : i = a
      · subst hi
        rw [if_neg (by omega), if_pos (by omega), List.getElem?_set_self (by omega), List.getElem?_eq_getElem (by omega)]; rfl
      · rw [List.getElem?_set_ne (by omega)]
        by_cases hc : a + 1 ≤ i ∧ i < a + 1 + n
        · rw [if_pos hc, if_pos (by omega)]
        · rw [if_neg hc, if_neg (by omega)]

theorem copyAll_get (d : Nat) (src : List Nat) : ∀ (n a b : Nat) (l : List Nat), a + n ≤ src.length → b + n ≤ l.length → ∃ l', copyAll d a b src n l = some l' ∧
    l'.length = l.length ∧ ∀ i, l'[i]? = if b ≤ i ∧ i < b + n then (src[a + (i - b)]?).map (· + d) else l[i]?
  | 0, a, b, l, h, h' => ⟨l, rfl, rfl, fun i => by rw [if_neg (by omega)]⟩
  | n + 1, a, b, l, h, h' => by
    obtain ⟨l', h1, h2, h3⟩ := copyAll_get d src n (a + 1) (b + 1) (l.set b (src[a] + d)) (by omega) (by rw [List.length_set]; omega)
    refine ⟨l', ?_, by rw [h2, List.length_set], fun i => ?_⟩
    · rw [copyAll, List.getElem?_eq_getElem (by omega)]
      simp only [Option.bind_eq_bind, Option.bind_some, put]
      rw [if_pos (by omega)]; exact h1
    · rw [h3 i]
      by_cases hi : i = b
      · subst hi
        rw [if_neg (by omega), if_pos (by omega), List.getElem?_set_self (by omega), Nat.sub_self, Nat.add_zero, List.getElem?_eq_getElem (by omega)]; rfl
      · rw [List.getElem?_set_ne (by omega)]
        by_cases hc : b + 1 ≤ i ∧ i < b + 1 + n
        · rw [if_pos hc, if_pos (by omega)]; congr 2; omega
        · rw [if_neg hc, if_neg (by omega)]

theorem sums_length (l : List Nat) : ∀ tot, (sums tot l).length = l.length := by
  induction l with
  | nil => intro; rfl
  | cons u us ih => intro tot; simp [sums, ih]

theorem sums_get (l : List Nat) : ∀ (tot t : Nat), t < l.length → (sums tot l)[t]? = some (tot + (l.take (t + 1)).sum) := by
  induction l with
  | nil => intro tot t h; simp at h
  | cons u us ih =>
    intro tot t h
    cases t with
    | zero => simp [sums]
    | succ t =>
      rw [sums, List.getElem?_cons_succ, ih _ _ (by simpa using h)]
      simp only [List.take_succ_cons, List.sum_cons]
      congr 1; omega

theorem sums_start (l : List Nat) {t : Nat} (h : t < l.length) : start (sums 0 l) t = some (l.take t).sum := by
  unfold start
  split
  · rename_i h0; subst h0; simp
  · rw [sums_get _ _ _ (by omega), show t - 1 + 1 = t by omega, Nat.zero_add]

end Pnumpy.GroupPart
