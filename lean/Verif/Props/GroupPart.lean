import Verif.Proofs.GroupPart
import Verif.Props.Group
/-
Property theorems C92: grouping in partitions (`cutoffs`).
-/
namespace Pnumpy.Props
open Spec Pnumpy.Sort Pnumpy.Str Pnumpy.Group Pnumpy.GroupPart

/-! ### Lengths -/

theorem put_length {α : Type} {l l' : List α} {i : Nat} {x : α} (h : put l i x = some l') : l'.length = l.length := by
  unfold put at h
  split at h
  · rw [Option.some.injEq] at h; subst h; simp
  · cases h

theorem gstep_length {α : Type} {eq : α → α → Option Bool} {v : List α} {base sh : Nat} {s s' : GS α} {ci : Nat} (h : Group.step eq v base sh s ci = some s') :
    s'.first.length = s.first.length ∧ s'.count.length = s.count.length := by
  unfold Group.step at h
  simp only [Option.bind_eq_bind, Option.bind_eq_some_iff] at h
  obtain ⟨val2, _, b, _, h3⟩ := h
  cases b
  · simp only [Bool.false_eq_true, if_false, Option.bind_eq_some_iff] at h3
    obtain ⟨count, h4, first, h5, group, h6, h7⟩ := h3
    rw [Option.some.injEq] at h7; subst h7
    exact ⟨put_length h5, put_length h4⟩
  · simp only [if_true, Option.bind_eq_some_iff] at h3
    obtain ⟨group, h6, h7⟩ := h3
    rw [Option.some.injEq] at h7; subst h7
    exact ⟨rfl, rfl⟩

theorem gloop_length {α : Type} {eq : α → α → Option Bool} {v : List α} {base sh : Nat} : ∀ (l : List Nat) {s s' : GS α}, Group.loop eq v base sh s l = some s' →
    s'.first.length = s.first.length ∧ s'.count.length = s.count.length
  | [], s, s', h => by rw [Group.loop, Option.some.injEq] at h; subst h; exact ⟨rfl, rfl⟩
  | ci :: l, s, s', h => by
    rw [Group.loop, Option.bind_eq_bind, Option.bind_eq_some_iff] at h
    obtain ⟨s1, h1, h2⟩ := h
    have a := gstep_length h1
    have b := gloop_length l h2
    exact ⟨b.1.trans a.1, b.2.trans a.2⟩

theorem groupIndex_length {α : Type} {eq : α → α → Option Bool} {v : List α} {base sh : Nat} {ix g f c : List Nat} {u : Nat} {G F C : List Nat}
    (h : groupIndex eq v base sh ix g f c = some (u, G, F, C)) : F.length = f.length ∧ C.length = c.length := by
  unfold groupIndex at h
  simp only [Option.bind_eq_bind, Option.bind_eq_some_iff] at h
  obtain ⟨c0, h1, val, h2, cnt, h3, fst, h4, grp, h5, s, h6, cnt', h7, h8⟩ := h
  rw [Option.some.injEq] at h8
  simp only [Prod.mk.injEq] at h8
  obtain ⟨_, _, rfl, rfl⟩ := h8
  obtain ⟨a, b⟩ := gloop_length _ h6
  refine ⟨a.trans (put_length h4), (put_length h7).trans (b.trans ?_)⟩
  unfold zeroBin at h3
  split at h3
  · exact put_length h3
  · rw [Option.some.injEq] at h3; subst h3; rfl

/-! ### The partitions -/

/-- Start of partition `t`. -/
def bnd (cuts : List Nat) (t : Nat) : Nat := (0 :: cuts).getD t 0

section
variable {cuts : List Nat} {n : Nat} (hc : Cuts cuts n)
include hc

theorem bnd_start {t : Nat} (ht : t < cuts.length) : start cuts t = some (bnd cuts t) ∧ cuts[t]? = some (bnd cuts (t + 1)) := by
  constructor
  · unfold start bnd
    cases t with
    | zero => rfl
    | succ t =>
      rw [if_neg (by omega), Nat.add_sub_cancel, List.getD_cons_succ, List.getD_eq_getElem?_getD, List.getElem?_eq_getElem (by omega)]; rfl
  · unfold bnd
    rw [List.getD_cons_succ, List.getD_eq_getElem?_getD, List.getElem?_eq_getElem ht]; rfl

theorem bnd_mem {t : Nat} (ht : t < cuts.length) : (bnd cuts t, bnd cuts (t + 1)) ∈ parts cuts := by
  refine List.mem_of_getElem? (i := t) ?_
  unfold parts
  rw [List.getElem?_zip_eq_some]
  refine ⟨?_, (bnd_start hc ht).2⟩
  unfold bnd
  rw [List.getD_eq_getElem?_getD, List.getElem?_eq_getElem (by simp; omega)]; rfl

theorem bnd_lt {t : Nat} (ht : t < cuts.length) : bnd cuts t < bnd cuts (t + 1) := hc.nonempty _ (bnd_mem hc ht)

theorem bnd_mono {i j : Nat} (h : i ≤ j) (hj : j ≤ cuts.length) : bnd cuts i ≤ bnd cuts j := by
  induction j with
  | zero => obtain rfl : i = 0 := by omega
            exact Nat.le_refl _
  | succ j ih =>
    rcases Nat.lt_or_ge i (j + 1) with h1 | h1
    · have := ih (by omega) (by omega)
      have := bnd_lt hc (t := j) (by omega)
      omega
    · obtain rfl : i = j + 1 := by omega
      exact Nat.le_refl _

theorem bnd_zero : bnd cuts 0 = 0 := rfl

theorem bnd_last : bnd cuts cuts.length = n := by
  have h := hc.last
  rw [List.getLast?_eq_getElem?] at h
  have hpos : 0 < cuts.length := by
    rcases Nat.eq_zero_or_pos cuts.length with h0 | h0
    · rw [List.length_eq_zero_iff] at h0; subst h0; cases h
    · exact h0
  obtain ⟨m, hm⟩ : ∃ m, cuts.length = m + 1 := ⟨cuts.length - 1, by omega⟩
  have := (bnd_start hc (t := m) (by omega)).2
  rw [hm, Nat.add_sub_cancel, this] at h
  rw [hm]; exact Option.some.inj h

theorem bnd_le {t : Nat} (ht : t ≤ cuts.length) : bnd cuts t ≤ n := by rw [← bnd_last hc]; exact bnd_mono hc ht (Nat.le_refl _)

theorem locate {i : Nat} (hi : i < n) : ∃ t, t < cuts.length ∧ bnd cuts t ≤ i ∧ i < bnd cuts (t + 1) := by
  have key : ∀ m, m ≤ cuts.length → i < bnd cuts m → ∃ t, t < m ∧ bnd cuts t ≤ i ∧ i < bnd cuts (t + 1) := by
    intro m
    induction m with
    | zero => intro _ h; exact absurd h (by rw [bnd_zero hc]; omega)
    | succ m ih =>
      intro hm h
      rcases Nat.lt_or_ge i (bnd cuts m) with h1 | h1
      · obtain ⟨t, a, b⟩ := ih (by omega) h1
        exact ⟨t, by omega, b⟩
      · exact ⟨m, by omega, h1, h⟩
  exact key _ (Nat.le_refl _) (by rw [bnd_last hc]; exact hi)

theorem apart {t t' : Nat} (ht : t < cuts.length) (ht' : t' < cuts.length) (h : t ≠ t') : bnd cuts (t' + 1) ≤ bnd cuts t ∨ bnd cuts (t + 1) ≤ bnd cuts t' := by
  rcases Nat.lt_or_ge t t' with h1 | h1
  · exact Or.inr (bnd_mono hc (by omega) (by omega))
  · exact Or.inl (bnd_mono hc (by omega) (by omega))

theorem partOf_eq {i t : Nat} (ht : t < cuts.length) (h1 : bnd cuts t ≤ i) (h2 : i < bnd cuts (t + 1)) : partOf cuts i = t := by
  unfold partOf
  have hget : ∀ j (hj : j < cuts.length), cuts[j] = bnd cuts (j + 1) := fun j hj => by
    have := (bnd_start hc hj).2
    rw [List.getElem?_eq_getElem hj] at this; exact Option.some.inj this
  rw [← List.take_append_drop t cuts, List.countP_append]
  have e1 : (cuts.take t).countP (· ≤ i) = t := by
    have hl : (cuts.take t).length = t := by rw [List.length_take]; omega
    conv_rhs => rw [← hl]
    rw [List.countP_eq_length]
    intro c hcm
    obtain ⟨j, hj, e⟩ := List.getElem_of_mem hcm
    rw [List.getElem_take, hget j (by omega)] at e
    have := bnd_mono hc (i := j + 1) (j := t) (by omega) (by omega)
    simp only [decide_eq_true_eq]; omega
  have e2 : (cuts.drop t).countP (· ≤ i) = 0 := by
    rw [List.countP_eq_zero]
    intro c hcm
    obtain ⟨j, hj, e⟩ := List.getElem_of_mem hcm
    rw [List.length_drop] at hj
    rw [List.getElem_drop, hget (t + j) (by omega)] at e
    have := bnd_mono hc (i := t + 1) (j := t + j + 1) (by omega) (by omega)
    simp only [decide_eq_true_eq]; omega
  rw [e1, e2]; rfl

/-! ### First phase -/

variable {α : Type} {eq : α → α → Option Bool} {v : List α}

/-- After the tasks `D`. -/
structure Inv1 (cuts : List Nat) (v : List α) (ix : List Nat) (D : List Nat) (s : GroupPart.St) : Prop where
  ix : s.ix = ix
  keys : s.keys.length = v.length
  first : s.first.length = v.length
  count : v.length ≤ s.count.length
  uniq : s.uniq.length = cuts.length
  done : ∀ t ∈ D, ∃ u, s.uniq[t]? = some u ∧ IsGrouping (slice v (bnd cuts t, bnd cuts (t + 1))) 0 u (slice s.keys (bnd cuts t, bnd cuts (t + 1)))
    ((slice s.first (bnd cuts t, bnd cuts (t + 1))).take u) ((slice s.count (bnd cuts t, bnd cuts (t + 1))).take u)

theorem task1_inv {ix : List Nat} (hn : v.length = n) (hix : ix.length = n)
    (hg : ∀ t, t < cuts.length → ∀ g f c : List Nat, g.length = bnd cuts (t + 1) - bnd cuts t → f.length = bnd cuts (t + 1) - bnd cuts t → c.length = bnd cuts (t + 1) - bnd cuts t →
      ∃ u G F C, groupIndex eq (slice v (bnd cuts t, bnd cuts (t + 1))) 0 0 (slice ix (bnd cuts t, bnd cuts (t + 1))) g f c = some (u, G, F, C) ∧
        IsGrouping (slice v (bnd cuts t, bnd cuts (t + 1))) 0 u G (F.take u) (C.take u))
    {D : List Nat} {s : GroupPart.St} (h : Inv1 cuts v ix D s) {t : Nat} (ht : t < cuts.length) (hD : ∀ t ∈ D, t < cuts.length) :
    ∃ s', task1 eq v 0 cuts s t = some s' ∧ Inv1 cuts v ix (t :: D) s' := by
  have hb := bnd_start hc ht
  have hlt := bnd_lt hc ht
  have hle := bnd_le hc (t := t + 1) (by omega)
  have hcl := h.count
  have hkl := h.keys
  have hfl := h.first
  obtain ⟨u, G, F, C, h1, h2⟩ := hg t ht (slice s.keys (bnd cuts t, bnd cuts (t + 1))) (slice s.first (bnd cuts t, bnd cuts (t + 1))) (slice s.count (bnd cuts t, bnd cuts (t + 1)))
    (slice_length (by omega)) (slice_length (by omega)) (slice_length (by omega))
  obtain ⟨hF, hC⟩ := groupIndex_length h1
  rw [slice_length (by omega)] at hF hC
  have hG : G.length = bnd cuts (t + 1) - bnd cuts t := by rw [h2.length, slice_length (by omega)]
  have hu : t < s.uniq.length := by rw [h.uniq]; exact ht
  refine ⟨_, task1_eq (c := bnd cuts (t + 1)) hb.1 hb.2 (by omega) (by omega) (by rw [h.ix]; omega) (by omega) (by omega) (Nat.le_refl _) (by omega) hu
    (by rw [h.ix]; exact h1) hG hF hC, ?_⟩
  refine ⟨h.ix, ?_, ?_, ?_, by simp [h.uniq], ?_⟩
  · show (over _ _ _).length = _
    rw [over_length (by omega)]; exact hkl
  · show (over _ _ _).length = _
    rw [over_length (by omega)]; exact hfl
  · show _ ≤ (over _ _ _).length
    rw [over_length (by omega)]; exact hcl
  · intro t' ht'
    by_cases e : t' = t
    · subst e
      refine ⟨u, ?_, ?_⟩
      · show (s.uniq.set _ _)[_]? = _
        rw [List.getElem?_set_self hu]
      · show IsGrouping _ 0 u (slice (over _ _ _) _) ((slice (over _ _ _) _).take u) ((slice (over _ _ _) _).take u)
        rw [slice_over_self hG (by omega), slice_over_self hF (by omega), slice_over_self hC (by omega)]
        exact h2
    · have hm : t' ∈ D := by
        rcases List.mem_cons.1 ht' with h | h
        · exact absurd h e
        · exact h
      obtain ⟨u', h3, h4⟩ := h.done t' hm
      have hap := apart hc ht (hD t' hm) (Ne.symm e)
      refine ⟨u', ?_, ?_⟩
      · show (s.uniq.set _ _)[_]? = _
        rw [List.getElem?_set_ne (Ne.symm e)]; exact h3
      · show IsGrouping _ 0 u' (slice (over _ _ _) _) ((slice (over _ _ _) _).take u') ((slice (over _ _ _) _).take u')
        rw [slice_over_ne (by omega) (by omega), slice_over_ne (by omega) (by omega), slice_over_ne (by omega) (by omega)]
        exact h4

theorem phase1 {ix : List Nat} (hn : v.length = n) (hix : ix.length = n)
    (hg : ∀ t, t < cuts.length → ∀ g f c : List Nat, g.length = bnd cuts (t + 1) - bnd cuts t → f.length = bnd cuts (t + 1) - bnd cuts t → c.length = bnd cuts (t + 1) - bnd cuts t →
      ∃ u G F C, groupIndex eq (slice v (bnd cuts t, bnd cuts (t + 1))) 0 0 (slice ix (bnd cuts t, bnd cuts (t + 1))) g f c = some (u, G, F, C) ∧
        IsGrouping (slice v (bnd cuts t, bnd cuts (t + 1))) 0 u G (F.take u) (C.take u)) :
    ∀ (o D : List Nat) (s : GroupPart.St), Inv1 cuts v ix D s → (∀ t ∈ D, t < cuts.length) → (∀ t ∈ o, t < cuts.length) →
      ∃ s' D', o.foldlM (task1 eq v 0 cuts) s = some s' ∧ Inv1 cuts v ix D' s' ∧ (∀ t ∈ o, t ∈ D') ∧ ∀ t ∈ D, t ∈ D'
  | [], D, s, h, _, _ => ⟨s, D, rfl, h, fun t ht => absurd ht (by simp), fun _ h => h⟩
  | t :: o, D, s, h, hD, ho => by
    obtain ⟨s1, h1, h2⟩ := task1_inv hc hn hix hg h (ho t (by simp)) hD
    obtain ⟨s2, D', h3, h4, h5, h6⟩ := phase1 hn hix hg o (t :: D) s1 h2 (by
      intro x hx
      rcases List.mem_cons.1 hx with h | h
      · exact h ▸ ho t (by simp)
      · exact hD x h) (fun x hx => ho x (by simp [hx]))
    refine ⟨s2, D', by rw [List.foldlM_cons, h1]; exact h3, h4, ?_, fun x hx => h6 x (by simp [hx])⟩
    intro x hx
    rcases List.mem_cons.1 hx with h | h
    · exact h ▸ h6 t (by simp)
    · exact h5 x h

/-! ### Second phase -/

/-- Groups before partition `t`. -/
def ub (uniq : List Nat) (t : Nat) : Nat := (uniq.take t).sum

omit hc in
theorem ub_succ {uniq : List Nat} {t u : Nat} (h : uniq[t]? = some u) : ub uniq (t + 1) = ub uniq t + u := by
  unfold ub
  rw [List.take_add_one, h, List.sum_append]; simp

omit hc in
theorem ub_mono {uniq : List Nat} {i j : Nat} (h : i ≤ j) : ub uniq i ≤ ub uniq j := by
  unfold ub
  have : uniq.take i = (uniq.take j).take i := by rw [List.take_take]; congr 1; omega
  rw [this]
  conv_rhs => rw [← List.take_append_drop i (uniq.take j), List.sum_append]
  omega

omit hc in
theorem ub_total {uniq : List Nat} {j : Nat} (h : uniq.length ≤ j) : ub uniq j = uniq.sum := by
  unfold ub; rw [List.take_of_length_le h]

/-- After the second tasks of `D`; `S` is the state after the first phase. -/
structure Inv2 (cuts : List Nat) (n : Nat) (S : GroupPart.St) (D : List Nat) (r : GroupPart.St2) : Prop where
  lix : r.ix.length = n
  lkeys : r.keys.length = n
  lfirst : r.firstR.length = S.uniq.sum
  lcount : r.countR.length = S.uniq.sum + 1
  zero : r.countR[0]? = some 0
  keys : ∀ t, t < cuts.length → ∀ i, bnd cuts t ≤ i → i < bnd cuts (t + 1) → r.keys[i]? = S.keys[i]?.map (· + if t ∈ D then ub S.uniq t + 1 else 0)
  ix : ∀ t, t < cuts.length → ∀ i, bnd cuts t ≤ i → i < bnd cuts (t + 1) → r.ix[i]? = S.ix[i]?.map (· + if t ∈ D then bnd cuts t else 0)
  firsts : ∀ t ∈ D, ∀ g u, S.uniq[t]? = some u → g < u → r.firstR[ub S.uniq t + g]? = S.first[bnd cuts t + g]?.map (· + bnd cuts t)
  counts : ∀ t ∈ D, ∀ g u, S.uniq[t]? = some u → g < u → r.countR[ub S.uniq t + g + 1]? = S.count[bnd cuts t + g]?

theorem task2_inv {S : GroupPart.St} (hu : S.uniq.length = cuts.length) (hf : S.first.length = n) (hcl : n ≤ S.count.length)
    (hul : ∀ t u, S.uniq[t]? = some u → u ≤ bnd cuts (t + 1) - bnd cuts t)
    {D : List Nat} {r : GroupPart.St2} (h : Inv2 cuts n S D r) {t : Nat} (ht : t < cuts.length) (hD : ∀ t ∈ D, t < cuts.length) (hnew : t ∉ D) :
    ∃ r', task2 S.first S.count (sums 0 S.uniq) cuts r t = some r' ∧ Inv2 cuts n S (t :: D) r' := by
  have hb := bnd_start hc ht
  have hlt := bnd_lt hc ht
  have hle := bnd_le hc (t := t + 1) (by omega)
  obtain ⟨u, hut⟩ : ∃ u, S.uniq[t]? = some u := ⟨_, List.getElem?_eq_getElem (by omega)⟩
  have huu := hul t u hut
  have hs := ub_succ hut
  have htot : ub S.uniq (t + 1) ≤ S.uniq.sum := by
    rw [← ub_total (uniq := S.uniq) (j := cuts.length) (by omega)]; exact ub_mono (by omega)
  have hstart : start (sums 0 S.uniq) t = some (ub S.uniq t) := sums_start _ (by omega)
  have hsum : (sums 0 S.uniq)[t]? = some (ub S.uniq t + u) := by
    rw [sums_get _ _ _ (by omega), Nat.zero_add]; exact congrArg some hs
  have lix := h.lix
  have lkeys := h.lkeys
  have lfirst := h.lfirst
  have lcount := h.lcount
  have hk0 : (if t = 0 then bnd cuts t else ub S.uniq t) = ub S.uniq t := by
    split
    · rename_i h0; subst h0; rfl
    · rfl
  obtain ⟨K, k1, k2, k3⟩ := addAll_get (ub S.uniq t + 1) (bnd cuts (t + 1) - bnd cuts t) (bnd cuts t) r.keys (by omega)
  obtain ⟨X, x1, x2, x3⟩ := addAll_get (bnd cuts t) (bnd cuts (t + 1) - bnd cuts t) (bnd cuts t) r.ix (by omega)
  obtain ⟨F, f1, f2, f3⟩ := copyAll_get (bnd cuts t) S.first u (bnd cuts t) (ub S.uniq t) r.firstR (by omega) (by omega)
  obtain ⟨C, c1, c2, c3⟩ := copyAll_get 0 S.count u (bnd cuts t) (ub S.uniq t + 1) r.countR (by omega) (by omega)
  have hX : ∃ X', (if t = 0 then some r.ix else addAll (bnd cuts t) (bnd cuts t) (bnd cuts (t + 1) - bnd cuts t) r.ix) = some X' ∧ X'.length = r.ix.length ∧
      ∀ i, X'[i]? = if bnd cuts t ≤ i ∧ i < bnd cuts t + (bnd cuts (t + 1) - bnd cuts t) then r.ix[i]?.map (· + bnd cuts t) else r.ix[i]? := by
    by_cases h0 : t = 0
    · refine ⟨r.ix, by rw [if_pos h0], rfl, fun i => ?_⟩
      subst h0
      rw [bnd_zero hc]
      split
      · cases r.ix[i]? <;> rfl
      · rfl
    · exact ⟨X, by rw [if_neg h0]; exact x1, x2, x3⟩
  obtain ⟨X', y1, y2, y3⟩ := hX
  refine ⟨{ ix := X', keys := K, firstR := F, countR := C }, ?_, ?_⟩
  · unfold task2
    simp only [Option.bind_eq_bind, hb.1, Option.bind_some, hstart, hb.2, hk0, k1, y1, hsum]
    rw [show ub S.uniq t + u - ub S.uniq t = u by omega, f1]
    simp only [Option.bind_some, c1]
  · refine ⟨y2.trans lix, k2.trans lkeys, f2.trans lfirst, c2.trans lcount, ?_, ?_, ?_, ?_, ?_⟩
    · show C[0]? = _
      rw [c3 0, if_neg (by omega)]; exact h.zero
    · intro t' ht' i hi1 hi2
      show K[i]? = _
      rw [k3 i]
      by_cases e : t' = t
      · subst e
        rw [if_pos (by omega), h.keys t' ht' i hi1 hi2, if_neg hnew, if_pos (by simp)]
        cases S.keys[i]? <;> rfl
      · have := apart hc ht ht' (Ne.symm e)
        rw [if_neg (by omega), h.keys t' ht' i hi1 hi2]
        simp only [List.mem_cons, e, false_or]
    · intro t' ht' i hi1 hi2
      show X'[i]? = _
      rw [y3 i]
      by_cases e : t' = t
      · subst e
        rw [if_pos (by omega), h.ix t' ht' i hi1 hi2, if_neg hnew, if_pos (by simp)]
        cases S.ix[i]? <;> rfl
      · have := apart hc ht ht' (Ne.symm e)
        rw [if_neg (by omega), h.ix t' ht' i hi1 hi2]
        simp only [List.mem_cons, e, false_or]
    · intro t' ht' g u' hu' hg
      show F[_]? = _
      rw [f3]
      by_cases e : t' = t
      · subst e
        rw [hut] at hu'; obtain rfl := Option.some.inj hu'
        rw [if_pos (by omega), Nat.add_sub_cancel_left]
      · have hm : t' ∈ D := by
          rcases List.mem_cons.1 ht' with h | h
          · exact absurd h e
          · exact h
        have hs' := ub_succ hu'
        have : ub S.uniq (t' + 1) ≤ ub S.uniq t ∨ ub S.uniq (t + 1) ≤ ub S.uniq t' := by
          rcases Nat.lt_or_ge t t' with h1 | h1
          · exact Or.inr (ub_mono h1)
          · exact Or.inl (ub_mono (by omega))
        rw [if_neg (by omega)]
        exact h.firsts t' hm g u' hu' hg
    · intro t' ht' g u' hu' hg
      show C[_]? = _
      rw [c3]
      by_cases e : t' = t
      · subst e
        rw [hut] at hu'; obtain rfl := Option.some.inj hu'
        rw [if_pos (by omega), show bnd cuts t' + (ub S.uniq t' + g + 1 - (ub S.uniq t' + 1)) = bnd cuts t' + g by omega]
        cases S.count[bnd cuts t' + g]? <;> rfl
      · have hm : t' ∈ D := by
          rcases List.mem_cons.1 ht' with h | h
          · exact absurd h e
          · exact h
        have hs' := ub_succ hu'
        have : ub S.uniq (t' + 1) ≤ ub S.uniq t ∨ ub S.uniq (t + 1) ≤ ub S.uniq t' := by
          rcases Nat.lt_or_ge t t' with h1 | h1
          · exact Or.inr (ub_mono h1)
          · exact Or.inl (ub_mono (by omega))
        rw [if_neg (by omega)]
        exact h.counts t' hm g u' hu' hg

theorem phase2 {S : GroupPart.St} (hu : S.uniq.length = cuts.length) (hf : S.first.length = n) (hcl : n ≤ S.count.length)
    (hul : ∀ t u, S.uniq[t]? = some u → u ≤ bnd cuts (t + 1) - bnd cuts t) :
    ∀ (o D : List Nat) (r : GroupPart.St2), Inv2 cuts n S D r → (∀ t ∈ D, t < cuts.length) → (∀ t ∈ o, t < cuts.length) → o.Nodup → (∀ t ∈ o, t ∉ D) →
      ∃ r' D', o.foldlM (task2 S.first S.count (sums 0 S.uniq) cuts) r = some r' ∧ Inv2 cuts n S D' r' ∧ (∀ t ∈ o, t ∈ D') ∧ ∀ t ∈ D, t ∈ D'
  | [], D, r, h, _, _, _, _ => ⟨r, D, rfl, h, fun t ht => absurd ht (by simp), fun _ h => h⟩
  | t :: o, D, r, h, hD, ho, hnd, hdis => by
    obtain ⟨r1, h1, h2⟩ := task2_inv hc hu hf hcl hul h (ho t (by simp)) hD (hdis t (by simp))
    rw [List.nodup_cons] at hnd
    obtain ⟨r2, D', h3, h4, h5, h6⟩ := phase2 hu hf hcl hul o (t :: D) r1 h2 (by
      intro x hx
      rcases List.mem_cons.1 hx with h | h
      · exact h ▸ ho t (by simp)
      · exact hD x h) (fun x hx => ho x (by simp [hx])) hnd.2 (by
      intro x hx hx'
      rcases List.mem_cons.1 hx' with h | h
      · subst h; exact hnd.1 hx
      · exact hdis x (by simp [hx]) h)
    refine ⟨r2, D', by rw [List.foldlM_cons, h1]; exact h3, h4, ?_, fun x hx => h6 x (by simp [hx])⟩
    intro x hx
    rcases List.mem_cons.1 hx with h | h
    · exact h ▸ h6 t (by simp)
    · exact h5 x h

/-! ### The result -/

theorem assemble {S : GroupPart.St} {r : GroupPart.St2} {ix D D' : List Nat} (hn : v.length = n) (h1 : Inv1 cuts v ix D S) (hD : ∀ t, t < cuts.length → t ∈ D)
    (h2 : Inv2 cuts n S D' r) (hD' : ∀ t, t < cuts.length → t ∈ D') :
    IsGrouping (tagged cuts v) 1 S.uniq.sum r.keys r.firstR r.countR.tail ∧
    ∀ t, t < cuts.length → ∀ i, bnd cuts t ≤ i → i < bnd cuts (t + 1) → ∃ y, r.keys[i]? = some y ∧ ub S.uniq t < y ∧ y ≤ ub S.uniq (t + 1) := by
  have hkl := h1.keys
  have hfl := h1.first
  have hcl := h1.count
  have A : ∀ t, t < cuts.length → ∃ u, S.uniq[t]? = some u ∧ ub S.uniq (t + 1) = ub S.uniq t + u ∧
      IsGrouping (slice v (bnd cuts t, bnd cuts (t + 1))) 0 u (slice S.keys (bnd cuts t, bnd cuts (t + 1)))
      ((slice S.first (bnd cuts t, bnd cuts (t + 1))).take u) ((slice S.count (bnd cuts t, bnd cuts (t + 1))).take u) ∧
      ∀ i, bnd cuts t ≤ i → i < bnd cuts (t + 1) → ∃ x, x < u ∧ S.keys[i]? = some x ∧ r.keys[i]? = some (ub S.uniq t + 1 + x) := by
    intro t ht
    obtain ⟨u, a1, a2⟩ := h1.done t (hD t ht)
    have hle := bnd_le hc (t := t + 1) (by omega)
    refine ⟨u, a1, ub_succ a1, a2, fun i hi1 hi2 => ?_⟩
    obtain ⟨x, hx⟩ : ∃ x, S.keys[i]? = some x := ⟨_, List.getElem?_eq_getElem (by omega)⟩
    have hmem : x ∈ slice S.keys (bnd cuts t, bnd cuts (t + 1)) := by
      refine List.mem_of_getElem? (i := i - bnd cuts t) ?_
      rw [slice_get, if_pos (by omega), ← hx]; congr 1; omega
    refine ⟨x, by have := (a2.range x hmem).2; omega, hx, ?_⟩
    rw [h2.keys t ht i hi1 hi2, hx, if_pos (hD' t ht), Option.map_some]
    congr 1; omega
  have htot : ∀ t, t ≤ cuts.length → ub S.uniq t ≤ S.uniq.sum := fun t ht => by
    rw [← ub_total (uniq := S.uniq) (j := cuts.length) (by rw [h1.uniq])]; exact ub_mono ht
  have T : ∀ t, t < cuts.length → ∀ i, bnd cuts t ≤ i → i < bnd cuts (t + 1) → (tagged cuts v)[i]? = v[i]?.map fun x => (t, x) := by
    intro t ht i hi1 hi2
    unfold tagged
    rw [List.getElem?_mapIdx, partOf_eq hc ht hi1 hi2]
  have tl : (tagged cuts v).length = n := by unfold tagged; rw [List.length_mapIdx, hn]
  have G : ∀ g, g < S.uniq.sum → ∃ t, t < cuts.length ∧ ub S.uniq t ≤ g ∧ g < ub S.uniq (t + 1) := by
    intro g hg
    have key : ∀ m, m ≤ cuts.length → g < ub S.uniq m → ∃ t, t < m ∧ ub S.uniq t ≤ g ∧ g < ub S.uniq (t + 1) := by
      intro m
      induction m with
      | zero => intro _ h; exact absurd h (by simp [ub])
      | succ m ih =>
        intro hm h
        rcases Nat.lt_or_ge g (ub S.uniq m) with h1 | h1
        · obtain ⟨t, a, b⟩ := ih (by omega) h1
          exact ⟨t, by omega, b⟩
        · exact ⟨m, by omega, h1, h⟩
    exact key _ (Nat.le_refl _) (by rw [ub_total (by rw [h1.uniq])]; exact hg)
  -- a group number determines the partition
  have W : ∀ t, t < cuts.length → ∀ g, ub S.uniq t ≤ g → g < ub S.uniq (t + 1) → ∀ i, r.keys[i]? = some (1 + g) →
      bnd cuts t ≤ i ∧ i < bnd cuts (t + 1) ∧ S.keys[i]? = some (g - ub S.uniq t) := by
    intro t ht g hg1 hg2 i hi
    have hin : i < n := by rw [← h2.lkeys]; exact (List.getElem?_eq_some_iff.1 hi).1
    obtain ⟨t', ht', hi1, hi2⟩ := locate hc hin
    obtain ⟨u', a1, a2, a3, a4⟩ := A t' ht'
    obtain ⟨x, x1, x2, x3⟩ := a4 i hi1 hi2
    rw [hi] at x3
    have x4 := Option.some.inj x3
    have e : t' = t := by
      rcases Nat.lt_trichotomy t t' with h | h | h
      · have := ub_mono (uniq := S.uniq) (i := t + 1) (j := t') h; omega
      · exact h.symm
      · have := ub_mono (uniq := S.uniq) (i := t' + 1) (j := t) h; omega
    subst e
    exact ⟨hi1, hi2, by rw [x2]; congr 1; omega⟩
  have cnt : ∀ g, g < S.uniq.sum → r.countR.tail[g]? = some (r.keys.count (1 + g)) := by
    intro g hg
    obtain ⟨t, ht, g1, g2⟩ := G g hg
    obtain ⟨u, a1, a2, a3, a4⟩ := A t ht
    have hle := bnd_le hc (t := t + 1) (by omega)
    have hlt := bnd_lt hc ht
    have hcc := a3.count (g - ub S.uniq t) (by omega)
    have hul := a3.lengths.2
    rw [List.length_take, slice_length (by omega)] at hul
    rw [List.getElem?_take, if_pos (by omega), slice_get, if_pos (by omega), Nat.zero_add] at hcc
    rw [List.getElem?_tail]
    have := h2.counts t (hD' t ht) (g - ub S.uniq t) u a1 (by omega)
    rw [show ub S.uniq t + (g - ub S.uniq t) + 1 = g + 1 by omega, hcc] at this
    rw [this]
    congr 1
    -- the occurrences of 1 + g are in the partition
    have e : r.keys = r.keys.take (bnd cuts t) ++ (slice r.keys (bnd cuts t, bnd cuts (t + 1)) ++ r.keys.drop (bnd cuts (t + 1))) := by
      rw [← drop_slice _ _ _ (by omega), List.take_append_drop]
    have z1 : (r.keys.take (bnd cuts t)).count (1 + g) = 0 := by
      rw [List.count_eq_zero]
      intro hm
      obtain ⟨i, hi, ei⟩ := List.getElem_of_mem hm
      rw [List.length_take] at hi
      rw [List.getElem_take] at ei
      have := W t ht g g1 g2 i (by rw [List.getElem?_eq_getElem (by omega), ei])
      omega
    have z2 : (r.keys.drop (bnd cuts (t + 1))).count (1 + g) = 0 := by
      rw [List.count_eq_zero]
      intro hm
      obtain ⟨i, hi, ei⟩ := List.getElem_of_mem hm
      rw [List.length_drop] at hi
      rw [List.getElem_drop] at ei
      have := W t ht g g1 g2 (bnd cuts (t + 1) + i) (by rw [List.getElem?_eq_getElem (by omega), ei])
      omega
    rw [e, List.count_append, List.count_append, z1, z2, Nat.zero_add, Nat.add_zero]
    have e' : slice r.keys (bnd cuts t, bnd cuts (t + 1)) = (slice S.keys (bnd cuts t, bnd cuts (t + 1))).map (· + (ub S.uniq t + 1)) := by
      apply List.ext_getElem?
      intro i
      rw [List.getElem?_map, slice_get, slice_get]
      split
      · rw [h2.keys t ht (bnd cuts t + i) (by omega) (by omega), if_pos (hD' t ht)]
      · rfl
    rw [e']
    unfold List.count
    rw [List.countP_map]
    apply List.countP_congr
    intro x _
    simp only [Function.comp_apply, beq_iff_eq]
    omega
  refine ⟨⟨?_, ?_, ?_, ?_, ?_, cnt, ?_⟩, ?_⟩
  · rw [tl, h2.lkeys]
  · exact ⟨h2.lfirst, by rw [List.length_tail, h2.lcount]; omega⟩
  · intro y hy
    obtain ⟨i, hi, e⟩ := List.getElem_of_mem hy
    obtain ⟨t, ht, hi1, hi2⟩ := locate hc (i := i) (by rw [← h2.lkeys]; exact hi)
    obtain ⟨u, a1, a2, a3, a4⟩ := A t ht
    obtain ⟨x, x1, x2, x3⟩ := a4 i hi1 hi2
    rw [List.getElem?_eq_getElem hi, e] at x3
    have := Option.some.inj x3
    have := htot (t + 1) (by omega)
    omega
  · intro i j hi hj
    rw [tl] at hi hj
    obtain ⟨t, ht, hi1, hi2⟩ := locate hc hi
    obtain ⟨t', ht', hj1, hj2⟩ := locate hc hj
    obtain ⟨u, a1, a2, a3, a4⟩ := A t ht
    obtain ⟨u', b1, b2, b3, b4⟩ := A t' ht'
    obtain ⟨x, x1, x2, x3⟩ := a4 i hi1 hi2
    obtain ⟨y, y1, y2, y3⟩ := b4 j hj1 hj2
    rw [T t ht i hi1 hi2, T t' ht' j hj1 hj2, x3, y3, Option.some.injEq, List.getElem?_eq_getElem (by omega : i < v.length),
      List.getElem?_eq_getElem (by omega : j < v.length)]
    simp only [Option.map_some, Option.some.injEq, Prod.mk.injEq]
    by_cases e : t = t'
    · subst e
      have hle := bnd_le hc (t := t + 1) (by omega)
      have := a3.same (i - bnd cuts t) (j - bnd cuts t) (by rw [slice_length (by omega)]; omega) (by rw [slice_length (by omega)]; omega)
      rw [slice_get, slice_get, slice_get, slice_get, if_pos (by omega), if_pos (by omega), if_pos (by omega), if_pos (by omega),
        show bnd cuts t + (i - bnd cuts t) = i by omega, show bnd cuts t + (j - bnd cuts t) = j by omega, x2, y2,
        List.getElem?_eq_getElem (by omega : i < v.length), List.getElem?_eq_getElem (by omega : j < v.length), Option.some.injEq, Option.some.injEq] at this
      constructor
      · intro h; exact ⟨rfl, this.1 (by omega)⟩
      · intro h; rw [this.2 h.2]
    · constructor
      · intro h
        rcases Nat.lt_or_ge t t' with h' | h'
        · have := ub_mono (uniq := S.uniq) (i := t + 1) (j := t') h'; omega
        · have := ub_mono (uniq := S.uniq) (i := t' + 1) (j := t) (by omega); omega
      · intro h; exact absurd h.1 e
  · intro g hg
    obtain ⟨t, ht, g1, g2⟩ := G g hg
    obtain ⟨u, a1, a2, a3, a4⟩ := A t ht
    obtain ⟨i, i1, i2, i3⟩ := a3.first (g - ub S.uniq t) (by omega)
    have hle := bnd_le hc (t := t + 1) (by omega)
    have hul := a3.lengths.1
    rw [List.length_take, slice_length (by omega)] at hul
    rw [List.getElem?_take, if_pos (by omega), slice_get, if_pos (by omega)] at i1
    rw [slice_get] at i2
    by_cases hib : i < bnd cuts (t + 1) - bnd cuts t
    · rw [if_pos hib, Nat.zero_add] at i2
      have := h2.firsts t (hD' t ht) (g - ub S.uniq t) u a1 (by omega)
      rw [show ub S.uniq t + (g - ub S.uniq t) = g by omega, i1, Option.map_some] at this
      refine ⟨i + bnd cuts t, this, ?_, ?_⟩
      · obtain ⟨x, x1, x2, x3⟩ := a4 (i + bnd cuts t) (by omega) (by omega)
        rw [Nat.add_comm i] at x2 x3 ⊢
        rw [i2] at x2
        have := Option.some.inj x2
        rw [x3]; congr 1; omega
      · intro j hj
        obtain ⟨j1, j2, j3⟩ := W t ht g g1 g2 j hj
        have := i3 (j - bnd cuts t) (by rw [slice_get, if_pos (by omega), show bnd cuts t + (j - bnd cuts t) = j by omega, j3]; simp)
        omega
    · rw [if_neg hib] at i2; cases i2
  · have e : r.countR.tail = (List.range S.uniq.sum).map fun g => r.keys.count (1 + g) := by
      apply List.ext_getElem?
      intro g
      rw [List.getElem?_map]
      by_cases hg : g < S.uniq.sum
      · rw [cnt g hg, List.getElem?_range hg]; rfl
      · rw [List.getElem?_eq_none (by rw [List.length_tail, h2.lcount]; omega), List.getElem?_eq_none (by simpa using hg)]; rfl
    have hpos : ∀ y ∈ r.keys, 1 ≤ y ∧ y ≤ S.uniq.sum := by
      intro y hy
      obtain ⟨i, hi, e⟩ := List.getElem_of_mem hy
      obtain ⟨t, ht, hi1, hi2⟩ := locate hc (i := i) (by rw [← h2.lkeys]; exact hi)
      obtain ⟨u, a1, a2, a3, a4⟩ := A t ht
      obtain ⟨x, x1, x2, x3⟩ := a4 i hi1 hi2
      rw [List.getElem?_eq_getElem hi, e] at x3
      have := Option.some.inj x3
      have := htot (t + 1) (by omega)
      omega
    have := sum_countP (r.keys.map (· - 1)) S.uniq.sum (by
      intro x hx
      obtain ⟨y, hy, rfl⟩ := List.mem_map.1 hx
      have := hpos y hy
      omega)
    rw [e, tl, ← h2.lkeys]
    rw [List.length_map] at this
    rw [← this]
    congr 1
    apply List.map_congr_left
    intro g _
    rw [List.countP_map, List.count]
    apply List.countP_congr
    intro y hy
    have := hpos y hy
    simp only [Function.comp_apply, beq_iff_eq]
    omega
  · intro t ht i hi1 hi2
    obtain ⟨u, a1, a2, a3, a4⟩ := A t ht
    obtain ⟨x, x1, x2, x3⟩ := a4 i hi1 hi2
    exact ⟨_, x3, by omega, by omega⟩

end

/-- The general form: `r` orders the values, each partition of the index is a stable argsort for `r` of the partition's values. -/
theorem part_general {α : Type} [DecidableEq α] [Inhabited α] {eq : α → α → Option Bool} {r : α → α → Prop} {v : List α} {cuts ix : List Nat}
    (hc : Cuts cuts v.length) (hr : Orders r v) (heq : ∀ x ∈ v, ∀ y ∈ v, eq x y = some (x == y)) (hix : ix.length = v.length)
    (hs : ∀ p ∈ parts cuts, IsStableArgsort r (fun i => (slice v p)[i]?.getD default) (p.2 - p.1) (slice ix p)) (base : Nat)
    (fresh : Nat → Nat → List Nat) (hfr : ∀ k n, (fresh k n).length = n) (o1 o2 : List Nat) (ho1 : o1.Perm (List.range cuts.length)) (ho2 : o2.Perm (List.range cuts.length)) :
    ∃ keys firsts counts uniq ix', call eq v 0 base cuts ix fresh o1 o2 = .ok keys firsts counts uniq ix' ∧
      IsGrouping (tagged cuts v) 1 (uniq.getLastD 0) keys firsts counts.tail ∧ counts.head? = some 0 ∧ uniq.length = cuts.length ∧
      (∀ t p, (parts cuts)[t]? = some p → slice ix' p = (slice ix p).map (· + p.1) ∧
        ∀ x ∈ slice keys p, (if t = 0 then 0 else uniq.getD (t - 1) 0) < x ∧ x ≤ uniq.getD t 0) := by
  have hg : ∀ t, t < cuts.length → ∀ g f c : List Nat, g.length = bnd cuts (t + 1) - bnd cuts t → f.length = bnd cuts (t + 1) - bnd cuts t → c.length = bnd cuts (t + 1) - bnd cuts t →
      ∃ u G F C, groupIndex eq (slice v (bnd cuts t, bnd cuts (t + 1))) 0 0 (slice ix (bnd cuts t, bnd cuts (t + 1))) g f c = some (u, G, F, C) ∧
        IsGrouping (slice v (bnd cuts t, bnd cuts (t + 1))) 0 u G (F.take u) (C.take u) := by
    intro t ht g f c hgl hfl hcl
    have hle := bnd_le hc (t := t + 1) (by omega)
    have hlt := bnd_lt hc ht
    have hsl : (slice v (bnd cuts t, bnd cuts (t + 1))).length = bnd cuts (t + 1) - bnd cuts t := slice_length hle
    have hsub : ∀ x ∈ slice v (bnd cuts t, bnd cuts (t + 1)), x ∈ v := fun x hx => List.mem_of_mem_drop (List.mem_of_mem_take hx)
    have hst := hs _ (bnd_mem hc ht)
    simp only at hst
    rw [← hsl] at hst
    obtain ⟨u, G, F, C, h1, h2, _⟩ := group_general (base := 0) (sh := 0) (by omega) (r := r) ⟨fun x hx => hr.irrefl x (hsub x hx), fun x hx y hy => hr.total x (hsub x hx) y (hsub y hy)⟩
      (fun x hx y hy => heq x (hsub x hx) y (hsub y hy)) (by intro h0; rw [h0] at hsl; simp at hsl; omega) hst g f c (by omega) (by omega) (by omega)
    exact ⟨u, G, F, C, h1, by simpa using h2⟩
  have hlt1 : ∀ t ∈ o1, t < cuts.length := fun t ht => List.mem_range.1 (ho1.mem_iff.1 ht)
  have hlt2 : ∀ t ∈ o2, t < cuts.length := fun t ht => List.mem_range.1 (ho2.mem_iff.1 ht)
  obtain ⟨S, D, p1, p2, p3, _⟩ := phase1 hc rfl hix hg o1 []
    { ix, keys := fresh 0 v.length, first := fresh 1 ix.length, count := fresh 2 (ix.length + 1 + cuts.length), uniq := fresh 3 cuts.length }
    ⟨rfl, hfr _ _, by show (fresh 1 _).length = _; rw [hfr, hix], by show _ ≤ (fresh 2 _).length; rw [hfr]; omega, hfr _ _, fun t ht => absurd ht (by simp)⟩
    (fun t ht => absurd ht (by simp)) hlt1
  have hD : ∀ t, t < cuts.length → t ∈ D := fun t ht => p3 t (ho1.mem_iff.2 (List.mem_range.2 ht))
  have hul : ∀ t u, S.uniq[t]? = some u → u ≤ bnd cuts (t + 1) - bnd cuts t := by
    intro t u h
    have ht : t < cuts.length := by rw [← p2.uniq]; exact (List.getElem?_eq_some_iff.1 h).1
    obtain ⟨u', h1, h2⟩ := p2.done t (hD t ht)
    rw [h] at h1; obtain rfl := Option.some.inj h1
    have := h2.lengths.1
    have hle := bnd_le hc (t := t + 1) (by omega)
    rw [List.length_take, slice_length (by rw [p2.first]; omega)] at this
    omega
  obtain ⟨R, D', q1, q2, q3, _⟩ := phase2 hc p2.uniq p2.first p2.count hul o2 []
    { ix := S.ix, keys := S.keys, firstR := fresh 4 S.uniq.sum, countR := 0 :: fresh 5 S.uniq.sum }
    ⟨by show S.ix.length = _; rw [p2.ix, hix], p2.keys, hfr _ _, by show (0 :: fresh 5 _).length = _; rw [List.length_cons, hfr], rfl,
      fun t _ i _ _ => by simp, fun t _ i _ _ => by simp, fun t ht => absurd ht (by simp), fun t ht => absurd ht (by simp)⟩
    (fun t ht => absurd ht (by simp)) hlt2 (ho2.nodup_iff.2 List.nodup_range) (fun t _ h => absurd h (by simp))
  have hD' : ∀ t, t < cuts.length → t ∈ D' := fun t ht => q3 t (ho2.mem_iff.2 (List.mem_range.2 ht))
  obtain ⟨a1, a2⟩ := assemble hc rfl p2 hD q2 hD'
  have hsg : ∀ t, t < cuts.length → (sums 0 S.uniq).getD t 0 = ub S.uniq (t + 1) := fun t ht => by
    rw [List.getD_eq_getElem?_getD, sums_get _ _ _ (by rw [p2.uniq]; exact ht)]; simp [ub]
  have hpos : 0 < cuts.length := by
    rcases Nat.eq_zero_or_pos cuts.length with h0 | h0
    · rw [List.length_eq_zero_iff] at h0; have := hc.last; rw [h0] at this; cases this
    · exact h0
  have hlast : (sums 0 S.uniq).getLastD 0 = S.uniq.sum := by
    rw [List.getLastD_eq_getLast?, List.getLast?_eq_getElem?, sums_length, sums_get _ _ _ (by rw [p2.uniq]; omega), Option.getD_some, Nat.zero_add,
      List.take_of_length_le (by omega)]
  refine ⟨R.keys, R.firstR, R.countR, sums 0 S.uniq, R.ix, ?_, ?_, ?_, ?_, ?_⟩
  · unfold call
    rw [hc.last]
    simp only
    rw [if_neg (by rw [hix]; simp), p1]
    simp only
    rw [q1]
  · rw [hlast]; exact a1
  · rw [List.head?_eq_getElem?]; exact q2.zero
  · rw [sums_length, p2.uniq]
  · intro t p hp
    have ht : t < cuts.length := by
      have := (List.getElem?_eq_some_iff.1 hp).1
      unfold parts at this
      rw [List.length_zip] at this; omega
    have hpe : p = (bnd cuts t, bnd cuts (t + 1)) := by
      unfold parts at hp
      rw [List.getElem?_zip_eq_some] at hp
      obtain ⟨e1, e2⟩ := hp
      rw [(bnd_start hc ht).2] at e2
      have e1' : bnd cuts t = p.1 := by
        unfold bnd; rw [List.getD_eq_getElem?_getD, e1]; rfl
      rw [e1', Option.some.inj e2]
    subst hpe
    constructor
    · apply List.ext_getElem?
      intro i
      rw [List.getElem?_map, slice_get, slice_get]
      split
      · rw [q2.ix t ht _ (by omega) (by omega), if_pos (hD' t ht), p2.ix]
      · rfl
    · intro x hx
      obtain ⟨i, hi, e⟩ := List.getElem_of_mem hx
      have hxe : (slice R.keys (bnd cuts t, bnd cuts (t + 1)))[i]? = some x := by rw [List.getElem?_eq_getElem hi, e]
      rw [slice_get] at hxe
      split at hxe
      · obtain ⟨y, y1, y2, y3⟩ := a2 t ht (bnd cuts t + i) (by omega) (by omega)
        rw [hxe] at y1; obtain rfl := Option.some.inj y1
        rw [hsg t ht]
        refine ⟨?_, y3⟩
        split
        · omega
        · rw [hsg (t - 1) (by omega), show t - 1 + 1 = t by omega]; exact y2
      · cases hxe

/-- C92 (integers and booleans; nonempty partitions): whatever the order of the tasks, grouping in partitions never accesses memory outside the arrays and numbers the
rows from 1 such that two rows have the same number exactly if they are in the same partition and hold equal values; it returns the first row of each group, the
size of each group (after a 0), and per partition the last group number used up to it; the index array becomes a list of row numbers of the whole array. -/
theorem C92_group_partial (t : DT) (ht : DT.isInt t) (v : List (BitVec t.bits)) (hb : t = .bool → ∀ x ∈ v, x.toNat ≤ 1) (cuts ix : List Nat)
    (hc : Cuts cuts v.length) (hix : ix.length = v.length)
    (hs : ∀ p ∈ parts cuts, IsStableArgsort (before t) (keyOf (slice v p)) (p.2 - p.1) (slice ix p)) (base : Nat)
    (fresh : Nat → Nat → List Nat) (hfr : ∀ k n, (fresh k n).length = n) (o1 o2 : List Nat) (ho1 : o1.Perm (List.range cuts.length)) (ho2 : o2.Perm (List.range cuts.length)) :
    ∃ keys firsts counts uniq ix', callNum v base cuts ix fresh o1 o2 = .ok keys firsts counts uniq ix' ∧
      IsGrouping (tagged cuts v) 1 (uniq.getLastD 0) keys firsts counts.tail ∧ counts.head? = some 0 ∧ uniq.length = cuts.length ∧
      (∀ k p, (parts cuts)[k]? = some p → slice ix' p = (slice ix p).map (· + p.1) ∧
        ∀ x ∈ slice keys p, (if k = 0 then 0 else uniq.getD (k - 1) 0) < x ∧ x ≤ uniq.getD k 0) :=
  part_general hc (before_orders t ht v hb) (fun _ _ _ _ => rfl) hix hs base fresh hfr o1 o2 ho1 ho2

/-- C92 with lexsort: what lexsort writes for one integer key and `cutoffs` can be grouped with the same cutoffs. -/
theorem C92_lexsort_group_partial (t : DT) (ht : DT.isInt t) (v : List (BitVec t.bits)) (hb : t = .bool → ∀ x ∈ v, x.toNat ≤ 1) (hn : v.length < 2 ^ 63)
    (cuts out ix : List Nat) (hc : Cuts cuts v.length) (hout : out.length = v.length) (hlex : Lex.CutRun [.num t v] cuts out ix) (base : Nat)
    (fresh : Nat → Nat → List Nat) (hfr : ∀ k n, (fresh k n).length = n) (o1 o2 : List Nat) (ho1 : o1.Perm (List.range cuts.length)) (ho2 : o2.Perm (List.range cuts.length)) :
    ∃ keys firsts counts uniq ix', callNum v base cuts ix fresh o1 o2 = .ok keys firsts counts uniq ix' ∧
      IsGrouping (tagged cuts v) 1 (uniq.getLastD 0) keys firsts counts.tail := by
  have hnan : ∀ x ∈ v, value t x ≠ .nan := fun x _ h => by
    cases t
    case f32 => exact ht
    case f64 => exact ht
    all_goals cases h
  have hget : ∀ j (hj : j < cuts.length), cuts[j] = bnd cuts (j + 1) := fun j hj => by
    have := (bnd_start hc hj).2
    rw [List.getElem?_eq_getElem hj] at this; exact Option.some.inj this
  obtain ⟨hl, h⟩ := (C25_cutoffs_partial [.num t v] cuts out v.length (by
    intro c hc
    rw [List.mem_singleton] at hc; subst hc
    exact ⟨⟨hb, hnan⟩, rfl⟩) hn (by
    rw [List.pairwise_iff_getElem]
    intro i j hi hj hij
    rw [hget i hi, hget j hj]
    exact bnd_mono hc (by omega) (by omega)) hc.last hout).2 ix hlex
  obtain ⟨K, F, C, U, X, h1, h2, _⟩ := C92_group_partial t ht v hb cuts ix hc hl (by
    intro p hp
    obtain ⟨k, hk, e⟩ := List.getElem_of_mem hp
    have hk' : k < cuts.length := by unfold parts at hk; rw [List.length_zip] at hk; omega
    have hs := h k hk'
    have hpe : p = (bnd cuts k, bnd cuts (k + 1)) := by
      have hp' : (parts cuts)[k]? = some p := by rw [List.getElem?_eq_getElem hk, e]
      unfold parts at hp'
      rw [List.getElem?_zip_eq_some] at hp'
      obtain ⟨e1, e2⟩ := hp'
      rw [(bnd_start hc hk').2] at e2
      have e1' : bnd cuts k = p.1 := by
        unfold bnd; rw [List.getD_eq_getElem?_getD, e1]; rfl
      rw [e1', Option.some.inj e2]
    have e1 : cutLo cuts k = p.1 := by
      have := (bnd_start hc hk').1
      unfold start at this
      unfold cutLo
      rw [hpe]
      split
      · rename_i h0; subst h0; rfl
      · rename_i h0; rw [if_neg h0] at this; rw [this]; rfl
    have e2 : cutHi cuts k = p.2 := by
      unfold cutHi; rw [(bnd_start hc hk').2, hpe]; rfl
    rw [e1, e2] at hs
    refine ⟨hs.1, hs.2.imp fun {i j} hij => ?_⟩
    have e : ∀ a b, RowBefore ([Col.num t v].map fun c => (c.slice p.1 p.2).before) a b ↔ before t (keyOf (slice v p) a) (keyOf (slice v p) b) := fun a b => by
      simp only [List.map_cons, List.map_nil, RowBefore, Col.slice, Col.before, false_or, not_false_eq_true, true_and, slice]
    exact ⟨fun q => hij.1 ((e _ _).2 q), fun q => hij.2 fun p => q ((e _ _).1 p)⟩) base fresh hfr o1 o2 ho1 ho2
  exact ⟨K, F, C, U, X, h1, h2⟩

/-- Such an index exists: lexsort with cutoffs can be carried out on five rows in two partitions. -/
example : ∃ ix, Lex.CutRun [.num .u8 [7#8, 5#8, 7#8, 5#8, 5#8]] [3, 5] (List.range 5) ix :=
  (C25_cutoffs_partial [.num .u8 [7#8, 5#8, 7#8, 5#8, 5#8]] [3, 5] (List.range 5) 5 (by
    intro c hc
    rw [List.mem_singleton] at hc; subst hc
    exact ⟨⟨(fun h => by cases h), (fun x _ h => by cases h)⟩, rfl⟩) (by decide) (by decide) rfl (by simp)).1

/-- Case: five rows in two partitions, the second partition done first. -/
example : callNum [7#8, 5#8, 7#8, 5#8, 5#8] 1 [3, 5] [1, 0, 2, 0, 1] (fun _ n => List.replicate n 99) [1, 0] [1, 0] =
    .ok [2, 1, 2, 3, 3] [1, 0, 3] [0, 1, 2, 2] [2, 3] [1, 0, 2, 3, 4] := by decide

example := C92_group_partial .u8 (by trivial) [7#8, 5#8, 7#8, 5#8, 5#8] (by intro h; cases h) [3, 5] [1, 0, 2, 0, 1]
  ⟨by decide, rfl⟩ rfl (by
    intro p hp
    have : p = (0, 3) ∨ p = (3, 5) := by simpa [parts] using hp
    rcases this with rfl | rfl
    · exact ⟨by decide, by decide⟩
    · exact ⟨by decide, by decide⟩) 1 (fun _ n => List.replicate n 99) (by simp) [1, 0] [1, 0] (by decide) (by decide)

/-- C92: cutoffs whose last element is not the number of rows are refused. -/
theorem C92_rejects {k : Nat} (v : List (BitVec k)) (base : Nat) (cuts ix : List Nat) (fresh : Nat → Nat → List Nat) (o1 o2 : List Nat) (c : Nat)
    (hl : cuts.getLast? = some c) (hc : c ≠ ix.length) : callNum v base cuts ix fresh o1 o2 = .valueError := by
  unfold callNum call; rw [hl]; simp only; rw [if_pos hc]

example : callNum [7#8, 5#8] 1 [1, 3] [1, 0] (fun _ n => List.replicate n 99) [0, 1] [0, 1] = .valueError := by decide

/-- C92, violated: an empty partition is given a group of its own, made of the first row of the next partition: two rows, three groups, counts that sum to 3. -/
theorem C92_empty_partition_violated : ∃ keys firsts counts uniq ix', callNum [5#8, 6#8] 1 [1, 1, 2] [0, 0] (fun _ n => List.replicate n 99) [0, 1, 2] [0, 1, 2] =
    .ok keys firsts counts uniq ix' ∧ uniq.getLastD 0 = 3 ∧ counts.tail.sum = 3 := ⟨[1, 3], [0, 1, 1], [0, 1, 1, 1], [1, 2, 3], [0, 1], by decide, rfl, rfl⟩

/-- C92, violated: an empty last partition makes the code read (and write) past the end of the index, as do cutoffs that exceed the last one. -/
theorem C92_outside_violated : callNum [5#8, 6#8] 1 [2, 2] [0, 1] (fun _ n => List.replicate n 99) [0, 1] [0, 1] = .outside ∧
    callNum [5#8, 6#8] 1 [3, 2] [0, 1] (fun _ n => List.replicate n 99) [0, 1] [0, 1] = .outside := by decide

/-- C92, violated: with an empty cutoffs array the element before its first is read. -/
theorem C92_no_cutoffs_violated {k : Nat} (v : List (BitVec k)) (base : Nat) (ix : List Nat) (fresh : Nat → Nat → List Nat) (o1 o2 : List Nat) :
    callNum v base [] ix fresh o1 o2 = .outside := rfl

/-- C92, violated: `base_index=0` is ignored: the numbers start at 1. -/
theorem C92_base_violated : callNum [5#8, 5#8] 0 [2] [0, 1] (fun _ n => List.replicate n 99) [0] [0] = .ok [1, 1] [0] [0, 2] [1] [0, 1] := by decide

/-- C92, violated: for strings (of other lengths than 1, 2, 4, 8) the counts come from the wrong cells: one group of two rows is reported with count 0. -/
theorem C92_bytes_violated : ∃ (v : List (List (BitVec 8))) (ix : List Nat) (keys firsts counts uniq ix' : List Nat), (∀ s ∈ v, s.length = 3) ∧
    callBytes 3 v 1 [2] ix (fun _ n => List.replicate n 99) [0] [0] = .ok keys firsts counts uniq ix' ∧ keys = [1, 1] ∧ counts = [0, 0] := by
  refine ⟨[[1, 2, 3], [1, 2, 3]], [0, 1], [1, 1], [0], [0, 0], [1], [0, 1], by decide, ?_, rfl, rfl⟩
  have e : binEq 3 [1#8, 2#8, 3#8] [1#8, 2#8, 3#8] = some true := by rw [binEq_eq 3 _ _ rfl rfl]; rfl
  simp [callBytes, call, task1, task2, groupAt, start, addAll, copyAll, sums, Group.loop, Group.step, zeroBin, put, e]

end Pnumpy.Props
