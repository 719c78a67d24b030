import Verif.Proofs.Group
import Verif.Spec.Group
import Verif.Props.LexSort
import Mathlib.Algebra.BigOperators.Group.List.Basic
/-
Property theorems C28: grouping from a sorted index.
-/
namespace Pnumpy.Props
open Spec Pnumpy.Sort Pnumpy.Str Pnumpy.Group

theorem sum_countP (l : List Nat) (u : Nat) (h : ∀ x ∈ l, x < u) : ((List.range u).map fun g => l.countP (· == g)).sum = l.length := by
  induction l with
  | nil => simp
  | cons x l ih =>
    have e : ∀ g, (x :: l).countP (· == g) = l.countP (· == g) + if x = g then 1 else 0 := fun g => by
      rw [List.countP_cons]; simp
    simp only [e, List.sum_map_add, List.length_cons]
    rw [ih fun y hy => h y (by simp [hy])]
    have hx := h x (by simp)
    have : ∀ m, ((List.range m).map fun g => if x = g then 1 else 0).sum = if x < m then 1 else 0 := by
      intro m
      induction m with
      | zero => simp
      | succ m ih =>
        rw [List.range_succ, List.map_append, List.sum_append, ih]
        simp only [List.map_cons, List.map_nil, List.sum_cons, List.sum_nil]
        rcases Nat.lt_trichotomy x m with h | h | h
        · rw [if_pos h, if_neg (by omega), if_pos (by omega)]; rfl
        · rw [if_neg (by omega), if_pos h, if_pos (by omega)]; rfl
        · rw [if_neg (by omega), if_neg (by omega), if_neg (by omega)]; rfl
    rw [this, if_pos hx]

/-- The general form: `r` orders the values, the index is a stable argsort for `r`. -/
theorem group_general {α : Type} [DecidableEq α] [Inhabited α] {eq : α → α → Option Bool} {r : α → α → Prop} {v : List α}
    {ix : List Nat} {base sh : Nat} (hsh : sh ≤ 1) (hr : Orders r v) (heq : ∀ x ∈ v, ∀ y ∈ v, eq x y = some (x == y))
    (hne : v ≠ []) (hs : IsStableArgsort r (fun i => v[i]?.getD default) v.length ix)
    (group first count : List Nat) (hg : group.length = v.length) (hf : v.length ≤ first.length) (hc : v.length + sh ≤ count.length) :
    ∃ u G F C, groupIndex eq v base sh ix group first count = some (u, G, F, C) ∧
      IsGrouping v base u G (F.take u) ((C.drop sh).take u) ∧ (sh = 1 → C[0]? = some 0) := by
  have hil : ix.length = v.length := by simpa using hs.1.length_eq
  have hnd : ix.Nodup := hs.1.nodup_iff.2 List.nodup_range
  have hmem : ∀ i, i ∈ ix ↔ i < v.length := fun i => hs.1.mem_iff.trans List.mem_range
  have hpos : 0 < v.length := List.length_pos_iff.2 hne
  let k : Nat → α := fun j => v[(ix[j]?.getD 0)]?.getD default
  have hkey : ∀ j i, ix[j]? = some i → v[i]? = some (k j) := by
    intro j i hj
    have hi := (hmem i).1 (List.mem_of_getElem? hj)
    show _ = some (v[(ix[j]?.getD 0)]?.getD default)
    rw [hj, Option.getD_some, List.getElem?_eq_getElem hi, Option.getD_some]
  have hin : Input eq v ix k sh v.length first.length count.length :=
    ⟨hnd, hkey, heq, rfl, by omega, by omega⟩
  have hpair : ∀ a b, a < b → b < v.length → ¬ r (k b) (k a) ∧ (¬ r (k a) (k b) → ix[a]?.getD 0 < ix[b]?.getD 0) := by
    intro a b hab hb
    have := (List.pairwise_iff_getElem.1 hs.2) a b (by omega) (by omega) hab
    show ¬ r (v[(ix[b]?.getD 0)]?.getD default) (v[(ix[a]?.getD 0)]?.getD default) ∧
      (¬ r (v[(ix[a]?.getD 0)]?.getD default) (v[(ix[b]?.getD 0)]?.getD default) → _)
    rw [List.getElem?_eq_getElem (by omega : a < ix.length), List.getElem?_eq_getElem (by omega : b < ix.length)]
    exact this
  have hkv : ∀ j, j < v.length → k j ∈ v := fun j hj =>
    List.mem_of_getElem? (hkey j _ (List.getElem?_eq_getElem (by omega)))
  have hcont : Contig k v.length := by
    intro a b c hab hbc hc he
    rcases Nat.lt_or_ge a b with h1 | h1
    · rcases Nat.lt_or_ge b c with h2 | h2
      · by_contra hne
        rcases hr.total _ (hkv a (by omega)) _ (hkv b (by omega)) hne with h | h
        · exact (hpair b c h2 hc).1 (he ▸ h)
        · exact (hpair a b h1 (by omega)).1 h
      · obtain rfl : b = c := by omega
        exact he
    · obtain rfl : a = b := by omega
      rfl
  obtain ⟨u, G, F, C, h1, h2, h3, h4, h5, h6, h7, h8, h9⟩ := groupIndex_ok (base := base) hin hsh (by omega) group first count hg rfl rfl
  refine ⟨u, G, F, C, h1, ?_, h9⟩
  rw [hil] at h5 h8
  have hpos' : ∀ i, i < v.length → ∃ j, j < v.length ∧ ix[j]? = some i := fun i hi => by
    obtain ⟨j, hj, e⟩ := List.getElem_of_mem ((hmem i).2 hi)
    exact ⟨j, by omega, by rw [List.getElem?_eq_getElem hj, e]⟩
  have hgu : ∀ j, j < v.length → gid k j < u := fun j hj => by
    have := gid_mono k (i := j) (j := v.length - 1) (by omega)
    omega
  have hu : u ≤ v.length := by have := gid_le k (v.length - 1); omega
  have hGcount : ∀ g, G.count (base + g) = cnt k v.length g := by
    intro g
    have e1 : G = (List.range v.length).map fun i => G[i]?.getD 0 := by
      apply List.ext_getElem
      · simp [h2]
      · intro i q1 q2; simp [List.getElem?_eq_getElem q1]
    have e2 : ix = (List.range v.length).map fun j => ix[j]?.getD 0 := by
      apply List.ext_getElem
      · simp [hil]
      · intro i q1 q2; simp [List.getElem?_eq_getElem q1]
    rw [e1, List.count, List.countP_map]
    rw [← hs.1.countP_eq]
    conv_lhs => rw [e2]
    rw [List.countP_map]
    unfold cnt
    apply List.countP_congr
    intro j hj
    have hj' := List.mem_range.1 hj
    simp only [Function.comp_apply, beq_iff_eq]
    rw [List.getElem?_eq_getElem (by omega : j < ix.length), Option.getD_some, h6 j _ (List.getElem?_eq_getElem (by omega)), Option.getD_some]
    omega
  refine ⟨h2, ⟨by simp; omega, by simp; omega⟩, ?_, ?_, ?_, ?_, ?_⟩
  · intro g hg
    obtain ⟨i, hi, e⟩ := List.getElem_of_mem hg
    obtain ⟨j, hj, hji⟩ := hpos' i (by omega)
    have := h6 j i hji
    rw [List.getElem?_eq_getElem hi, e] at this
    have := Option.some.inj this
    have := hgu j hj
    omega
  · intro i i' hi hi'
    obtain ⟨j, hj, hji⟩ := hpos' i hi
    obtain ⟨j', hj', hji'⟩ := hpos' i' hi'
    rw [h6 j i hji, h6 j' i' hji', hkey j i hji, hkey j' i' hji', Option.some.injEq, Option.some.injEq]
    rw [← gid_iff hcont hj hj']
    omega
  · intro g hg
    obtain ⟨j, hj, e1, e2, e3⟩ := h7 g hg
    obtain ⟨i, hi⟩ : ∃ i, ix[j]? = some i := ⟨_, List.getElem?_eq_getElem hj⟩
    refine ⟨i, by rw [List.getElem?_take, if_pos hg, e3, hi], by rw [h6 j i hi, e1, Nat.add_comm], ?_⟩
    intro i' hi'
    have hlt : i' < v.length := by rw [← h2]; exact (List.getElem?_eq_some_iff.1 hi').1
    obtain ⟨j', hj', hji'⟩ := hpos' i' hlt
    rw [h6 j' i' hji'] at hi'
    have hgid : gid k j' = gid k j := by have := Option.some.inj hi'; omega
    rcases Nat.lt_trichotomy j j' with h | h | h
    · have hkk := (gid_iff hcont hj' (by omega : j < v.length)).1 hgid
      have := (hpair j j' h hj').2 (by rw [hkk]; exact hr.irrefl _ (hkv j (by omega)))
      rw [hi, hji', Option.getD_some, Option.getD_some] at this
      omega
    · subst h; rw [hi] at hji'; exact Nat.le_of_eq (Option.some.inj hji')
    · have := e2 j' h; omega
  · intro g hg
    rw [List.getElem?_take, if_pos hg, List.getElem?_drop, Nat.add_comm, h8 g hg, hGcount]
  · have e : (C.drop sh).take u = (List.range u).map fun g => cnt k v.length g := by
      apply List.ext_getElem?
      intro g
      rw [List.getElem?_take, List.getElem?_drop, List.getElem?_map]
      by_cases hg : g < u
      · rw [if_pos hg, Nat.add_comm, h8 g hg, List.getElem?_range hg]; rfl
      · rw [if_neg hg, List.getElem?_eq_none (by simpa using hg)]; rfl
    rw [e]
    have := sum_countP ((List.range v.length).map (gid k)) u (by
      intro x hx
      obtain ⟨j, hj, rfl⟩ := List.mem_map.1 hx
      exact hgu j (List.mem_range.1 hj))
    simp only [List.countP_map, List.length_map, List.length_range] at this
    exact this

/-- Integer types (booleans are stored as 0 or 1). -/
def DT.isInt : DT → Prop
  | .f32 | .f64 => False
  | _ => True

theorem before_orders (t : DT) (ht : DT.isInt t) (v : List (BitVec t.bits)) (hb : t = .bool → ∀ x ∈ v, x.toNat ≤ 1) :
    Orders (before t) v := by
  refine ⟨fun x _ h => ?_, fun x hx y hy hne => ?_⟩
  · rcases h with h | ⟨h1, h2⟩
    · revert h; cases value t x <;> simp [Value.lt]
    · exact h2 h1
  · have tot : ∀ a b : Int, a ≠ b → Value.lt (.fin a) (.fin b) ∨ Value.lt (.fin b) (.fin a) := fun a b h => by
      simp only [Value.lt]; omega
    suffices h : (value t x).lt (value t y) ∨ (value t y).lt (value t x) from h.imp Or.inl Or.inl
    cases t
    case f32 => exact absurd ht id
    case f64 => exact absurd ht id
    case bool =>
      refine tot _ _ fun e => hne ?_
      have h : ∀ z : BitVec 8, z.toNat ≤ 1 → z = 0 ∨ z = 1 := fun z hz => by
        rcases Nat.lt_or_ge z.toNat 1 with h | h
        · left; apply BitVec.eq_of_toNat_eq; simp; omega
        · right; apply BitVec.eq_of_toNat_eq; simp; omega
      rcases h x (hb rfl x hx) with h1 | h1 <;> rcases h y (hb rfl y hy) with h2 | h2 <;> subst h1 <;> subst h2 <;> first
        | rfl
        | exact absurd e (by decide)
    case i8 => exact tot _ _ fun e => hne (BitVec.eq_of_toInt_eq e)
    case i16 => exact tot _ _ fun e => hne (BitVec.eq_of_toInt_eq e)
    case i32 => exact tot _ _ fun e => hne (BitVec.eq_of_toInt_eq e)
    case i64 => exact tot _ _ fun e => hne (BitVec.eq_of_toInt_eq e)
    case u8 => exact tot _ _ fun e => hne (BitVec.eq_of_toNat_eq (Int.ofNat.inj e))
    case u16 => exact tot _ _ fun e => hne (BitVec.eq_of_toNat_eq (Int.ofNat.inj e))
    case u32 => exact tot _ _ fun e => hne (BitVec.eq_of_toNat_eq (Int.ofNat.inj e))
    case u64 => exact tot _ _ fun e => hne (BitVec.eq_of_toNat_eq (Int.ofNat.inj e))

/-- C28 (integers and booleans; nonempty array): grouping a stable argsort gives ids that are equal exactly for equal
values, the first row of each group, and the number of rows of each group. With base 1 the counts start at position 1
(position 0 holds 0). No access is out of bounds. -/
theorem C28_group (t : DT) (ht : DT.isInt t) (v : List (BitVec t.bits)) (hb : t = .bool → ∀ x ∈ v, x.toNat ≤ 1) (hne : v ≠ [])
    (base : Nat) (hbase : base ≤ 1) (ix : List Nat) (hs : IsStableArgsort (before t) (keyOf v) v.length ix)
    (group first count : List Nat) (hg : group.length = v.length) (hf : first.length = v.length) (hc : count.length = v.length + 1) :
    ∃ u ids firsts counts, groupNum v base ix group first count = some (u, ids, firsts, counts) ∧
      IsGrouping v base u ids (firsts.take u) ((counts.drop base).take u) ∧ (base = 1 → counts[0]? = some 0) :=
  group_general hbase (before_orders t ht v hb) (fun _ _ _ _ => rfl) hne hs group first count hg (by omega) (by omega)

/-- C28 (byte strings; base 1, see `C28_bytes_base0_violated`): the same for strings of other sizes than 1, 2, 4, 8. -/
theorem C28_group_bytes (len : Nat) (v : List (List (BitVec 8))) (hv : ∀ s ∈ v, s.length = len) (hne : v ≠ [])
    (ix : List Nat) (hs : IsStableArgsort LexBefore (strOf v) v.length ix)
    (group first count : List Nat) (hg : group.length = v.length) (hf : first.length = v.length) (hc : count.length = v.length + 1) :
    ∃ u ids firsts counts, groupBytes len v 1 ix group first count = some (u, ids, firsts, counts) ∧
      IsGrouping v 1 u ids (firsts.take u) ((counts.drop 1).take u) ∧ counts[0]? = some 0 := by
  have ho : Orders LexBefore v := by
    refine ⟨fun x _ => by rw [lexBefore_iff rfl]; exact lt_irrefl _, fun x hx y hy h => ?_⟩
    rw [lexBefore_iff (by rw [hv x hx, hv y hy]), lexBefore_iff (by rw [hv x hx, hv y hy])]
    rcases lt_trichotomy (nums x) (nums y) with h1 | h1 | h1
    · exact Or.inl h1
    · exact absurd (nums_inj h1) h
    · exact Or.inr h1
  obtain ⟨u, G, F, C, h1, h2, h3⟩ := group_general (eq := binEq len) (base := 1) (Nat.le_refl 1) ho
    (fun x hx y hy => by
      rw [binEq_eq len x y (hv x hx) (hv y hy)]
      show some (x == y) = some (decide (x = y))
      rw [Option.some.injEq, Bool.eq_iff_iff]; simp) hne hs group first count hg (by omega) (by omega)
  exact ⟨u, G, F, C, h1, h2, h3 rfl⟩

/-- C28 with lexsort: the index that lexsort returns for one integer key can be grouped. -/
theorem C28_lexsort_group_partial (t : DT) (ht : DT.isInt t) (v : List (BitVec t.bits)) (hb : t = .bool → ∀ x ∈ v, x.toNat ≤ 1)
    (hn : v.length < 2 ^ 63) (hne : v ≠ []) (base : Nat) (hbase : base ≤ 1) (ix : List Nat)
    (hlex : Lex.LexRun .merge [.num t v] v.length ix)
    (group first count : List Nat) (hg : group.length = v.length) (hf : first.length = v.length) (hc : count.length = v.length + 1) :
    ∃ u ids firsts counts, groupNum v base ix group first count = some (u, ids, firsts, counts) ∧
      IsGrouping v base u ids (firsts.take u) ((counts.drop base).take u) := by
  have hnan : ∀ x ∈ v, value t x ≠ .nan := fun x _ h => by
    cases t
    case f32 => exact ht
    case f64 => exact ht
    all_goals cases h
  have h := (C24_lexsort_partial [.num t v] v.length (by
    intro c hc
    rw [List.mem_singleton] at hc; subst hc
    exact ⟨⟨hb, hnan⟩, rfl⟩) hn (by
    rintro ⟨c, hc, h⟩
    rw [List.mem_singleton] at hc; subst hc
    exact absurd h id)).2 ix hlex
  have hs : IsStableArgsort (before t) (keyOf v) v.length ix := by
    refine ⟨h.1, h.2.imp fun {i j} hij => ?_⟩
    have e : ∀ a b, RowBefore [(Col.num t v).before] a b ↔ before t (keyOf v a) (keyOf v b) := fun a b => by
      simp only [RowBefore, Col.before, false_or, not_false_eq_true, true_and]
    exact ⟨fun q => hij.1 ((e _ _).2 q), fun q => hij.2 fun p => q ((e _ _).1 p)⟩
  obtain ⟨u, G, F, C, h1, h2, _⟩ := C28_group t ht v hb hne base hbase ix hs group first count hg hf hc
  exact ⟨u, G, F, C, h1, h2⟩

/-- A case with three groups. -/
example : groupNum [7#8, 5#8, 7#8, 9#8] 1 [1, 0, 2, 3] [0, 0, 0, 0] [0, 0, 0, 0] [0, 0, 0, 0, 0] =
    some (3, [2, 1, 2, 3], [1, 0, 3, 0], [0, 1, 2, 1, 0]) := by decide

/-- C28 is false for floating point keys: 0.0, -0.0, 0.0 (equal, hence a valid stable order) get three ids, although
rows 0 and 2 hold the same value, and all three are equal numbers. -/
theorem C28_signed_zero_violated : ∃ (v : List (BitVec DT.f64.bits)) (ix ids firsts counts : List Nat),
    IsStableArgsort (before .f64) (keyOf v) v.length ix ∧
    groupNum v 0 ix [0, 0, 0] [0, 0, 0] [0, 0, 0, 0] = some (3, ids, firsts, counts) ∧ v[0]? = v[2]? ∧ ids[0]? ≠ ids[2]? := by
  refine ⟨[0, 0x8000000000000000, 0], [0, 1, 2], [0, 1, 2], [0, 1, 2], [1, 1, 1, 0], ⟨by decide, ?_⟩, by decide, rfl, by decide⟩
  unfold keyOf
  decide

/-- C28 is false for strings with base 0: the counts are stored one position too far (with base 0 the caller takes the
counts from position 0: 0 rows in group 0). -/
theorem C28_bytes_base0_violated : ∃ (v : List (List (BitVec 8))) (ix ids firsts counts : List Nat),
    (∀ s ∈ v, s.length = 3) ∧ groupBytes 3 v 0 ix [0, 0] [0, 0] [9, 9, 9] = some (1, ids, firsts, counts) ∧
    ids = [0, 0] ∧ counts[0]? = some 0 := by
  refine ⟨[[1, 2, 3], [1, 2, 3]], [0, 1], [0, 0], [0, 0], [0, 2, 9], by decide, ?_, rfl, rfl⟩
  have e : binEq 3 [1#8, 2#8, 3#8] [1#8, 2#8, 3#8] = some true := by rw [binEq_eq 3 _ _ rfl rfl]; rfl
  simp [groupBytes, groupIndex, loop, step, zeroBin, put, e]

/-- C28 is false for empty arrays: the first index is read before the length is looked at. -/
theorem C28_empty_violated {k : Nat} (base : Nat) (group first count : List Nat) :
    groupNum ([] : List (BitVec k)) base [] group first count = none := rfl

/-- Case: the keys 7, 5, 7, 9 with ids from 1. -/
example := C28_group .u8 (by trivial) [7#8, 5#8, 7#8, 9#8] (by intro h; cases h) (by simp) 1 (by decide) [1, 0, 2, 3]
  ⟨by decide, by decide⟩ [0, 0, 0, 0] [0, 0, 0, 0] [0, 0, 0, 0, 0] rfl rfl rfl

end Pnumpy.Props
