import Verif.Model.Group
import Verif.Proofs.Strings
import Verif.Proofs.SortMem
import Mathlib.Algebra.BigOperators.Group.Finset.Basic
import Mathlib.Data.Finset.Card
namespace Pnumpy.Group
open Pnumpy.Sort Pnumpy.Str

section
variable {α : Type} [DecidableEq α]

/-- Number of changes up to position `j`. -/
def gid (k : Nat → α) : Nat → Nat
  | 0 => 0
  | j + 1 => if k j = k (j + 1) then gid k j else gid k j + 1

theorem gid_mono (k : Nat → α) {i j : Nat} (h : i ≤ j) : gid k i ≤ gid k j := by
  induction j with
  | zero => obtain rfl : i = 0 := by omega
            exact Nat.le_refl _
  | succ j ih =>
    rcases Nat.lt_or_ge i (j + 1) with h1 | h1
    · refine Nat.le_trans (ih (by omega)) ?_
      rw [gid]; split <;> omega
    · obtain rfl : i = j + 1 := by omega
      exact Nat.le_refl _

theorem gid_key (k : Nat → α) {i j : Nat} (h : i ≤ j) (he : gid k i = gid k j) : k i = k j := by
  induction j with
  | zero => obtain rfl : i = 0 := by omega
            rfl
  | succ j ih =>
    rcases Nat.lt_or_ge i (j + 1) with h1 | h1
    · have hm := gid_mono k (i := i) (j := j) (by omega)
      rw [gid] at he
      split at he
      · rename_i hk; rw [ih (by omega) he, hk]
      · omega
    · obtain rfl : i = j + 1 := by omega
      rfl

/-- Equal keys are next to each other. -/
def Contig (k : Nat → α) (n : Nat) : Prop := ∀ a b c, a ≤ b → b ≤ c → c < n → k a = k c → k a = k b

theorem gid_of_key {k : Nat → α} {n : Nat} (hc : Contig k n) {i j : Nat} (h : i ≤ j) (hj : j < n) (he : k i = k j) :
    gid k i = gid k j := by
  induction j with
  | zero => obtain rfl : i = 0 := by omega
            rfl
  | succ j ih =>
    rcases Nat.lt_or_ge i (j + 1) with h1 | h1
    · have h2 := hc i j (j + 1) (by omega) (by omega) hj he
      rw [gid, if_pos (by rw [← h2]; exact he)]
      exact ih (by omega) (by omega) h2
    · obtain rfl : i = j + 1 := by omega
      rfl

theorem gid_iff {k : Nat → α} {n : Nat} (hc : Contig k n) {i j : Nat} (hi : i < n) (hj : j < n) :
    gid k i = gid k j ↔ k i = k j := by
  rcases Nat.le_total i j with h | h
  · exact ⟨gid_key k h, gid_of_key hc h hj⟩
  · exact ⟨fun e => (gid_key k h e.symm).symm, fun e => (gid_of_key hc h hi e.symm).symm⟩

/-- Every number up to the last one occurs. -/
theorem gid_surj (k : Nat → α) {j g : Nat} (h : g ≤ gid k j) : ∃ i, i ≤ j ∧ gid k i = g ∧ ∀ i', i' < i → gid k i' < g := by
  induction j with
  | zero => exact ⟨0, Nat.le_refl _, by simp [gid] at h ⊢; exact h.symm, fun _ h => absurd h (by omega)⟩
  | succ j ih =>
    rcases Nat.lt_or_ge (gid k j) g with h1 | h1
    · refine ⟨j + 1, Nat.le_refl _, ?_, fun i' hi' => Nat.lt_of_le_of_lt (gid_mono k (by omega)) h1⟩
      rw [gid] at h ⊢; split at h
      · omega
      · rename_i hk; rw [if_neg hk]; omega
    · obtain ⟨i, h2, h3⟩ := ih h1
      exact ⟨i, by omega, h3⟩

/-- Number of positions below `m` in group `g`. -/
def cnt (k : Nat → α) (m g : Nat) : Nat := (List.range m).countP fun j => gid k j == g

theorem cnt_succ (k : Nat → α) (m g : Nat) : cnt k (m + 1) g = cnt k m g + if gid k m = g then 1 else 0 := by
  unfold cnt
  rw [List.range_succ, List.countP_append]
  simp [List.countP_cons]

theorem cnt_above (k : Nat → α) {m g : Nat} (h : ∀ j, j < m → gid k j < g) : cnt k m g = 0 := by
  unfold cnt
  rw [List.countP_eq_zero]
  intro j hj h'
  have := h j (List.mem_range.1 hj)
  simp only [beq_iff_eq] at h'
  omega

/-- State after `m + 1` positions. -/
structure GInv (ix : List Nat) (k : Nat → α) (base sh n fl cl m : Nat) (s : GS α) : Prop where
  gl : s.group.length = n
  fl' : s.first.length = fl
  cl' : s.count.length = cl
  cur : s.cur = gid k m
  cnt : s.cnt = cnt k (m + 1) (gid k m)
  val : s.val = k m
  group : ∀ j i, j ≤ m → ix[j]? = some i → s.group[i]? = some (gid k j + base)
  first : ∀ g, g ≤ s.cur → ∃ j, j ≤ m ∧ gid k j = g ∧ (∀ j', j' < j → gid k j' < g) ∧ s.first[g]? = ix[j]?
  count : ∀ g, g < s.cur → s.count[g + sh]? = some (Group.cnt k (m + 1) g)
  zero : sh = 1 → s.count[0]? = some 0

variable {eq : α → α → Option Bool} {v : List α} {ix : List Nat} {k : Nat → α} {base sh n fl cl : Nat}

/-- What is known about the input. -/
structure Input (eq : α → α → Option Bool) (v : List α) (ix : List Nat) (k : Nat → α) (sh n fl cl : Nat) : Prop where
  nodup : ix.Nodup
  key : ∀ j i, ix[j]? = some i → v[i]? = some (k j)
  eq : ∀ x ∈ v, ∀ y ∈ v, eq x y = some (x == y)
  len : v.length = n
  first : ix.length ≤ fl
  count : ix.length + sh ≤ cl

theorem gid_le (k : Nat → α) (j : Nat) : gid k j ≤ j := by
  induction j with
  | zero => exact Nat.le_refl _
  | succ j ih => rw [gid]; split <;> omega

theorem step_ok (hi : Input eq v ix k sh n fl cl) (hsh : sh ≤ 1) {m : Nat} {s : GS α} (h : GInv ix k base sh n fl cl m s) {ci : Nat}
    (hc : ix[m + 1]? = some ci) : ∃ s', step eq v base sh s ci = some s' ∧ GInv ix k base sh n fl cl (m + 1) s' := by
  have hv := hi.key _ _ hc
  have hm : m + 1 < ix.length := (List.getElem?_eq_some_iff.1 hc).1
  obtain ⟨c0, hc0⟩ : ∃ c0, ix[m]? = some c0 := ⟨_, List.getElem?_eq_getElem (by omega)⟩
  have hv0 := hi.key _ _ hc0
  have hci : ci < n := by rw [← hi.len]; exact (List.getElem?_eq_some_iff.1 hv).1
  have he := hi.eq _ (List.mem_of_getElem? hv0) _ (List.mem_of_getElem? hv)
  have hge := gid_le k m
  have hother : ∀ j i, j ≤ m → ix[j]? = some i → ci ≠ i := by
    intro j i hj hji e
    subst e
    have := (List.getElem?_inj (by omega) hi.nodup).1 (hc.trans hji.symm)
    omega
  have hcur := h.cur
  unfold step
  rw [hv]
  simp only [Option.bind_eq_bind, Option.bind_some]
  rw [h.val, he]
  simp only [Option.bind_some]
  by_cases hk : k m = k (m + 1)
  · have hg : gid k (m + 1) = gid k m := by rw [gid, if_pos hk]
    rw [hk, beq_self_eq_true, if_pos rfl]
    unfold put
    rw [if_pos (by rw [h.gl]; exact hci)]
    refine ⟨_, rfl, ?_⟩
    refine ⟨by simp [h.gl], h.fl', h.cl', hcur.trans hg.symm, ?_, rfl, ?_, ?_, ?_, h.zero⟩
    · show s.cnt + 1 = _
      rw [h.cnt, cnt_succ (m := m + 1), hg, if_pos rfl]
    · intro j i hj hji
      rcases Nat.lt_or_ge m j with h1 | h1
      · obtain rfl : j = m + 1 := by omega
        rw [hc] at hji; obtain rfl := Option.some.inj hji
        show (s.group.set _ _)[_]? = _
        rw [List.getElem?_set_self (by rw [h.gl]; exact hci), hcur, hg]
      · show (s.group.set _ _)[_]? = _
        rw [List.getElem?_set_ne (hother j i h1 hji)]; exact h.group j i h1 hji
    · intro g hgl
      obtain ⟨j, h1, h2⟩ := h.first g hgl
      exact ⟨j, by omega, h2⟩
    · intro g hgl
      have hgl' : g < s.cur := hgl
      show s.count[g + sh]? = _
      rw [h.count g hgl', cnt_succ (m := m + 1), if_neg (by rw [hg]; omega)]; rfl
  · have hg : gid k (m + 1) = gid k m + 1 := by rw [gid, if_neg hk]
    have : (k m == k (m + 1)) = false := by simpa using hk
    rw [this, if_neg (by simp)]
    have hfl : s.cur + 1 < s.first.length := by rw [h.fl']; have := hi.first; omega
    have hcl : s.cur + sh < s.count.length := by rw [h.cl']; have := hi.count; omega
    unfold put
    rw [if_pos hcl, Option.bind_some, if_pos hfl, Option.bind_some, if_pos (by rw [h.gl]; exact hci), Option.bind_some]
    refine ⟨_, rfl, ?_⟩
    have habove : ∀ j, j < m + 1 → gid k j < gid k m + 1 := fun j hj => by have := gid_mono k (i := j) (j := m) (by omega); omega
    refine ⟨by simp [h.gl], by simp [h.fl'], by simp [h.cl'], by show s.cur + 1 = _; omega, ?_, rfl, ?_, ?_, ?_, ?_⟩
    · show 1 = _
      rw [cnt_succ (m := m + 1), hg, if_pos rfl, cnt_above k habove]
    · intro j i hj hji
      rcases Nat.lt_or_ge m j with h1 | h1
      · obtain rfl : j = m + 1 := by omega
        rw [hc] at hji; obtain rfl := Option.some.inj hji
        show (s.group.set _ _)[_]? = _
        rw [List.getElem?_set_self (by rw [h.gl]; exact hci), hcur, hg]
      · show (s.group.set _ _)[_]? = _
        rw [List.getElem?_set_ne (hother j i h1 hji)]; exact h.group j i h1 hji
    · intro g hgl
      have hgl' : g ≤ s.cur + 1 := hgl
      rcases Nat.lt_or_ge s.cur g with h1 | h1
      · obtain rfl : g = s.cur + 1 := by omega
        refine ⟨m + 1, Nat.le_refl _, by omega, fun j' hj' => by have := habove j' hj'; omega, ?_⟩
        show (s.first.set _ _)[_]? = _
        rw [List.getElem?_set_self hfl, hc]
      · obtain ⟨j, h2, h3, h4, h5⟩ := h.first g h1
        refine ⟨j, by omega, h3, h4, ?_⟩
        show (s.first.set _ _)[_]? = _
        rw [List.getElem?_set_ne (by omega), h5]
    · intro g hgl
      have hgl' : g < s.cur + 1 := hgl
      show (s.count.set _ _)[_]? = _
      rw [cnt_succ (m := m + 1), if_neg (by omega)]
      rcases Nat.lt_or_ge g s.cur with h1 | h1
      · rw [List.getElem?_set_ne (by omega), h.count g h1]; rfl
      · obtain rfl : g = s.cur := by omega
        rw [List.getElem?_set_self hcl, h.cnt, hcur]; rfl
    · intro h1
      show (s.count.set _ _)[_]? = _
      rw [List.getElem?_set_ne (by omega)]; exact h.zero h1

theorem loop_ok (hi : Input eq v ix k sh n fl cl) (hsh : sh ≤ 1) : ∀ (l : List Nat) {m : Nat} {s : GS α}, GInv ix k base sh n fl cl m s →
    ix.drop (m + 1) = l → m < ix.length → ∃ s', loop eq v base sh s l = some s' ∧ GInv ix k base sh n fl cl (ix.length - 1) s' := by
  intro l
  induction l with
  | nil =>
    intro m s h hd hm
    have : ix.length ≤ m + 1 := List.drop_eq_nil_iff.1 hd
    obtain rfl : m = ix.length - 1 := by omega
    exact ⟨s, rfl, h⟩
  | cons ci l ih =>
    intro m s h hd hm
    have hl : m + 1 < ix.length := by
      rcases Nat.lt_or_ge (m + 1) ix.length with h1 | h1
      · exact h1
      · rw [List.drop_eq_nil_of_le h1] at hd; cases hd
    have hc : ix[m + 1]? = some ci := by
      have := congrArg (·[0]?) hd
      simpa [List.getElem?_drop] using this
    obtain ⟨s', h1, h2⟩ := step_ok hi hsh h hc
    have hd' : ix.drop (m + 1 + 1) = l := by
      have := congrArg List.tail hd
      simpa [List.tail_drop] using this
    obtain ⟨s'', h3, h4⟩ := ih h2 hd' hl
    exact ⟨s'', by rw [loop, h1]; exact h3, h4⟩

/-- The result in terms of positions. -/
theorem groupIndex_ok (hi : Input eq v ix k sh n fl cl) (hsh : sh ≤ 1) (hne : 0 < ix.length) (group first count : List Nat)
    (hgl : group.length = n) (hfl : first.length = fl) (hcl : count.length = cl) :
    ∃ u G F C, groupIndex eq v base sh ix group first count = some (u, G, F, C) ∧ G.length = n ∧ F.length = fl ∧ C.length = cl ∧
      u = gid k (ix.length - 1) + 1 ∧
      (∀ j i, ix[j]? = some i → G[i]? = some (gid k j + base)) ∧
      (∀ g, g < u → ∃ j, j < ix.length ∧ gid k j = g ∧ (∀ j', j' < j → gid k j' < g) ∧ F[g]? = ix[j]?) ∧
      (∀ g, g < u → C[g + sh]? = some (cnt k ix.length g)) ∧ (sh = 1 → C[0]? = some 0) := by
  obtain ⟨c0, hc0⟩ : ∃ c0, ix[0]? = some c0 := ⟨_, List.getElem?_eq_getElem hne⟩
  have hv0 := hi.key _ _ hc0
  have hci : c0 < n := by rw [← hi.len]; exact (List.getElem?_eq_some_iff.1 hv0).1
  have hf := hi.first
  have hcc := hi.count
  obtain ⟨count', hc1, hc2, hc3⟩ : ∃ count', zeroBin sh count = some count' ∧ count'.length = cl ∧
      (sh = 1 → count'[0]? = some 0) := by
    unfold zeroBin
    by_cases h : sh = 1
    · rw [if_pos h]; unfold put; rw [if_pos (by omega)]
      exact ⟨_, rfl, by simp [hcl], fun _ => by rw [List.getElem?_set_self (by omega)]⟩
    · rw [if_neg h]; exact ⟨count, rfl, hcl, fun h' => absurd h' h⟩
  have h0 : GInv ix k base sh n fl cl 0
      { group := group.set c0 base, first := first.set 0 c0, count := count', cur := 0, cnt := 1, val := k 0 } := by
    refine ⟨by simp [hgl], by simp [hfl], hc2, rfl, ?_, rfl, ?_, ?_, fun g h => absurd h (by simp), hc3⟩
    · simp [cnt, gid]
    · intro j i hj hji
      obtain rfl : j = 0 := by omega
      rw [hc0] at hji; obtain rfl := Option.some.inj hji
      show (group.set _ _)[_]? = _
      rw [List.getElem?_set_self (by omega)]; simp [gid]
    · intro g hg
      obtain rfl : g = 0 := by have : g ≤ 0 := hg
                               omega
      refine ⟨0, Nat.le_refl _, rfl, fun _ h => absurd h (by omega), ?_⟩
      show (first.set _ _)[_]? = _
      rw [List.getElem?_set_self (by omega), hc0]
  obtain ⟨s, h1, h2⟩ := loop_ok hi hsh ix.tail h0 (by simp) hne
  have hge := gid_le k (ix.length - 1)
  have hcur := h2.cur
  have hlast : s.cur + sh < s.count.length := by rw [h2.cl']; omega
  refine ⟨s.cur + 1, s.group, s.first, s.count.set (s.cur + sh) s.cnt, ?_, h2.gl, h2.fl', by simp [h2.cl'], by omega, ?_, ?_, ?_, ?_⟩
  · unfold groupIndex
    rw [hc0]
    simp only [Option.bind_eq_bind, Option.bind_some, hv0, hc1]
    unfold put
    rw [if_pos (by omega)]
    simp only [Option.bind_some]
    rw [if_pos (by omega)]
    simp only [Option.bind_some, h1]
    rw [if_pos hlast]
    rfl
  · intro j i hji
    have : j < ix.length := (List.getElem?_eq_some_iff.1 hji).1
    exact h2.group j i (by omega) hji
  · intro g hg
    obtain ⟨j, h3, h4⟩ := h2.first g (by omega)
    exact ⟨j, by omega, h4⟩
  · intro g hg
    have hl : ix.length - 1 + 1 = ix.length := by omega
    rcases Nat.lt_or_ge g s.cur with h3 | h3
    · rw [List.getElem?_set_ne (by omega), h2.count g h3, hl]
    · obtain rfl : g = s.cur := by omega
      rw [List.getElem?_set_self hlast, h2.cnt, hl, hcur]
  · intro h3
    rw [List.getElem?_set_ne (by omega)]; exact h2.zero h3

end

/-! ### BINARY_LT -/

theorem binTail_eq : ∀ (ks : List Nat) (s t : List (BitVec 8)) (off : Nat), off + ks.sum ≤ s.length → off + ks.sum ≤ t.length →
    binTail s t off ks = some (decide (pieces (s.drop off) ks ≠ pieces (t.drop off) ks)) := by
  intro ks
  induction ks with
  | nil => intro s t off _ _; simp [binTail, pieces]
  | cons k ks ih =>
    intro s t off h1 h2
    simp only [List.sum_cons] at h1 h2
    rw [binTail, rd_eq (by omega), rd_eq (by omega)]
    simp only [Option.bind_eq_bind, Option.bind_some, pieces, ne_eq, List.cons.injEq]
    split
    · rename_i h; simp [h]
    · rename_i h
      rw [not_not] at h
      rw [ih s t (off + k) (by omega) (by omega)]
      simp [h, List.drop_drop]

theorem binLoop_eq (n : Nat) : ∀ (s t : List (BitVec 8)) (off : Nat), off + n ≤ s.length → off + n ≤ t.length →
    binLoop s t off n = some (decide (pieces (s.drop off) (sizes n) ≠ pieces (t.drop off) (sizes n))) := by
  induction n using Nat.strongRecOn with
  | _ n ih =>
    intro s t off h1 h2
    rw [binLoop, sizes]
    split
    · rename_i h
      rw [rd_eq (by omega), rd_eq (by omega)]
      simp only [Option.bind_eq_bind, Option.bind_some, pieces, ne_eq, List.cons.injEq]
      split
      · rename_i h; simp [h]
      · rename_i h'
        rw [not_not] at h'
        rw [ih (n - 8) (by omega) s t (off + 8) (by omega) (by omega)]
        simp [h', List.drop_drop]
    · rename_i h
      have := sizes_sum n
      rw [sizes, if_neg h] at this
      exact binTail_eq _ s t off (by omega) (by omega)

theorem binEq_eq (len : Nat) (s t : List (BitVec 8)) (hs : s.length = len) (ht : t.length = len) :
    binEq len s t = some (s == t) := by
  unfold binEq
  rw [binLoop_eq len s t 0 (by omega) (by omega)]
  simp only [List.drop_zero, Option.map_some, Option.some.injEq]
  by_cases h : s = t
  · subst h; simp
  · have : pieces s (sizes len) ≠ pieces t (sizes len) := fun e =>
      h (pieces_inj (sizes len) (by rw [sizes_sum]; exact hs) (by rw [sizes_sum]; exact ht) e)
    simp [h, this]

end Pnumpy.Group
