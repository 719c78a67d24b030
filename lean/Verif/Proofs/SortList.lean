import Verif.Model.Sort
/-
Order facts about lists used for the sorting routines.
-/
namespace Pnumpy.Sort

/-- `lt` is a strict weak order. -/
structure SWO {α : Type} (lt : α → α → Bool) : Prop where
  asymm : ∀ x y, lt x y = true → lt y x = false
  negTrans : ∀ x y z, lt x z = true → lt x y = true ∨ lt y z = true

/-- Equivalent in the order. -/
def eqv {α : Type} (lt : α → α → Bool) (c x : α) : Bool := !lt x c && !lt c x

/-- Ascending. -/
def Asc {α : Type} (lt : α → α → Bool) (l : List α) : Prop := l.Pairwise fun x y => lt y x = false

/-- Stable sort. -/
structure SS {α : Type} (lt : α → α → Bool) (l' l : List α) : Prop where
  perm : l'.Perm l
  asc : Asc lt l'
  stable : ∀ c, l'.filter (eqv lt c) = l.filter (eqv lt c)

variable {α : Type} {lt : α → α → Bool}

theorem SWO.irrefl (h : SWO lt) (x : α) : lt x x = false := by
  cases hx : lt x x
  · rfl
  · exact (h.asymm x x hx) ▸ hx.symm ▸ rfl

theorem SWO.trans (h : SWO lt) {x y z : α} (h1 : lt x y = true) (h2 : lt y z = true) : lt x z = true := by
  rcases h.negTrans x z y h1 with h3 | h3
  · exact h3
  · rw [h.asymm _ _ h3] at h2; exact absurd h2 (by decide)

/-- `¬ y < x` is transitive. -/
theorem SWO.geTrans (h : SWO lt) {x y z : α} (h1 : lt y x = false) (h2 : lt z y = false) : lt z x = false := by
  cases hz : lt z x
  · rfl
  · rcases h.negTrans z y x hz with h3 | h3
    · rw [h3] at h2; exact h2
    · rw [h3] at h1; exact h1

theorem SWO.lt_of_lt_of_le (h : SWO lt) {x y z : α} (h1 : lt x y = true) (h2 : lt z y = false) : lt x z = true := by
  rcases h.negTrans x z y h1 with h3 | h3
  · exact h3
  · rw [h3] at h2; exact absurd h2 (by decide)

theorem SWO.lt_of_le_of_lt (h : SWO lt) {x y z : α} (h1 : lt y x = false) (h2 : lt y z = true) : lt x z = true := by
  rcases h.negTrans y x z h2 with h3 | h3
  · rw [h3] at h1; exact absurd h1 (by decide)
  · exact h3

theorem SS.refl {l : List α} (h : Asc lt l) : SS lt l l := ⟨List.Perm.refl _, h, fun _ => rfl⟩

theorem SS.trans {l l' l'' : List α} (h1 : SS lt l'' l') (h2 : SS lt l' l) : SS lt l'' l :=
  ⟨h1.perm.trans h2.perm, h1.asc, fun c => (h1.stable c).trans (h2.stable c)⟩

/-- Replacing the two halves by stable sorts of them does not change what a stable sort is. -/
theorem SS.of_halves {l L L' R R' : List α} (h : SS lt l (L' ++ R')) (hL : SS lt L' L) (hR : SS lt R' R) :
    SS lt l (L ++ R) :=
  ⟨h.perm.trans (hL.perm.append hR.perm), h.asc, fun c => by
    rw [h.stable c, List.filter_append, List.filter_append, hL.stable c, hR.stable c]⟩

/-- The merge: the right head goes first exactly if it is less. -/
def mergeL (tr : α → α → Bool) : List α → List α → List α
  | [], R => R
  | l :: L, [] => l :: L
  | l :: L, r :: R => if tr r l then r :: mergeL tr (l :: L) R else l :: mergeL tr L (r :: R)
termination_by L R => L.length + R.length

theorem mergeL_nil_right (tr : α → α → Bool) (L : List α) : mergeL tr L [] = L := by
  cases L <;> simp [mergeL]

theorem mergeL_perm (tr : α → α → Bool) (L R : List α) : (mergeL tr L R).Perm (L ++ R) := by
  induction L, R using mergeL.induct tr with
  | case1 R => simp [mergeL]
  | case2 l L => simp [mergeL]
  | case3 l L r R h ih =>
    rw [mergeL, if_pos h]
    exact (ih.cons r).trans (List.perm_middle.symm)
  | case4 l L r R h ih =>
    rw [mergeL, if_neg h]
    exact ih.cons l

theorem mergeL_congr {tr tr' : α → α → Bool} (L R : List α) (h : ∀ r ∈ R, ∀ l ∈ L, tr r l = tr' r l) :
    mergeL tr L R = mergeL tr' L R := by
  induction L, R using mergeL.induct tr with
  | case1 R => simp [mergeL]
  | case2 l L => simp [mergeL]
  | case3 l L r R hb ih =>
    rw [mergeL, mergeL, if_pos hb, if_pos (by rw [← h r (by simp) l (by simp)]; exact hb)]
    rw [ih fun r hr l hl => h r (by simp [hr]) l hl]
  | case4 l L r R hb ih =>
    rw [mergeL, mergeL, if_neg hb, if_neg (by rw [← h r (by simp) l (by simp)]; exact hb)]
    rw [ih fun r hr l hl => h r hr l (by simp [hl])]

theorem mergeL_SS (hs : SWO lt) (L R : List α) (hL : Asc lt L) (hR : Asc lt R) :
    SS lt (mergeL lt L R) (L ++ R) := by
  induction L, R using mergeL.induct lt with
  | case1 R => simp only [mergeL, List.nil_append]; exact SS.refl hR
  | case2 l L => simp only [mergeL, List.append_nil]; exact SS.refl hL
  | case3 l L r R h ih =>
    rw [mergeL, if_pos h]
    have hR' := List.pairwise_cons.1 hR
    have hL' := List.pairwise_cons.1 hL
    have ih := ih hL hR'.2
    refine ⟨(ih.perm.cons r).trans List.perm_middle.symm, ?_, ?_⟩
    · refine List.pairwise_cons.2 ⟨fun y hy => ?_, ih.asc⟩
      rcases List.mem_append.1 (ih.perm.mem_iff.1 hy) with hy | hy
      · rcases List.mem_cons.1 hy with rfl | hy
        · exact hs.asymm _ _ h
        · exact hs.asymm _ _ (hs.lt_of_lt_of_le h (hL'.1 y hy))
      · exact hR'.1 y hy
    · intro c
      have ihc := ih.stable c
      rw [List.filter_cons, ihc, List.filter_append, List.filter_append]
      by_cases hc : eqv lt c r = true
      · rw [if_pos hc]
        have hno : (l :: L).filter (eqv lt c) = [] := by
          rw [List.filter_eq_nil_iff]
          intro x hx hcx
          have hrx : lt r x = true := by
            rcases List.mem_cons.1 hx with rfl | hx
            · exact h
            · exact hs.lt_of_lt_of_le h (hL'.1 x hx)
          unfold eqv at hc hcx
          simp only [Bool.and_eq_true, Bool.not_eq_true'] at hc hcx
          rcases hs.negTrans r c x hrx with h1 | h1
          · rw [hc.1] at h1; exact absurd h1 (by decide)
          · rw [hcx.2] at h1; exact absurd h1 (by decide)
        rw [hno, List.filter_cons, if_pos hc]; rfl
      · rw [if_neg hc, List.filter_cons (xs := R), if_neg hc]
  | case4 l L r R h ih =>
    rw [mergeL, if_neg h]
    have hR' := List.pairwise_cons.1 hR
    have hL' := List.pairwise_cons.1 hL
    have ih := ih hL'.2 hR
    have h : lt r l = false := by cases hx : lt r l; rfl; exact absurd hx h
    refine ⟨ih.perm.cons l, ?_, ?_⟩
    · refine List.pairwise_cons.2 ⟨fun y hy => ?_, ih.asc⟩
      rcases List.mem_append.1 (ih.perm.mem_iff.1 hy) with hy | hy
      · exact hL'.1 y hy
      · rcases List.mem_cons.1 hy with rfl | hy
        · exact h
        · exact hs.geTrans h (hR'.1 y hy)
    · intro c
      rw [List.filter_cons, ih.stable c, List.cons_append, List.filter_cons]

/-- Two ascending runs whose border is in order are one ascending run. -/
theorem asc_append (hs : SWO lt) {L R : List α} {x y : α} (hL : Asc lt (L ++ [x])) (hR : Asc lt (y :: R))
    (h : lt y x = false) : Asc lt (L ++ [x] ++ y :: R) := by
  refine List.pairwise_append.2 ⟨hL, hR, fun a ha b hb => ?_⟩
  have h1 : lt x a = false := by
    rcases List.mem_append.1 ha with ha | ha
    · exact (List.pairwise_append.1 hL).2.2 a ha x (by simp)
    · rw [List.mem_singleton.1 ha]; exact hs.irrefl x
  have h2 : lt b y = false := by
    rcases List.mem_cons.1 hb with rfl | hb
    · exact hs.irrefl _
    · exact (List.pairwise_cons.1 hR).1 b hb
  exact hs.geTrans (hs.geTrans h1 h) h2

/-- Inserting an element behind everything that is not greater. -/
theorem insert_SS (hs : SWO lt) (S1 S2 : List α) (x : α) (h : Asc lt (S1 ++ S2)) (h2 : ∀ y ∈ S2, lt x y = true)
    (h1 : ∀ y ∈ S1, lt x y = false) : SS lt (S1 ++ x :: S2) (S1 ++ S2 ++ [x]) := by
  refine ⟨?_, ?_, ?_⟩
  · refine List.Perm.trans ?_ (List.perm_append_singleton x (S1 ++ S2)).symm
    exact List.perm_middle
  · have h' := List.pairwise_append.1 h
    refine List.pairwise_append.2 ⟨h'.1, List.pairwise_cons.2 ⟨fun y hy => hs.asymm _ _ (h2 y hy), h'.2.1⟩, ?_⟩
    intro a ha b hb
    rcases List.mem_cons.1 hb with rfl | hb
    · exact h1 a ha
    · exact h'.2.2 a ha b hb
  · intro c
    rw [List.append_assoc, List.filter_append, List.filter_append (l₁ := S1), List.filter_append, List.filter_cons]
    congr 1
    by_cases hc : eqv lt c x = true
    · rw [if_pos hc]
      have hno : S2.filter (eqv lt c) = [] := by
        rw [List.filter_eq_nil_iff]
        intro y hy hcy
        unfold eqv at hc hcy
        simp only [Bool.and_eq_true, Bool.not_eq_true'] at hc hcy
        rcases hs.negTrans x c y (h2 y hy) with h1 | h1
        · rw [hc.1] at h1; exact absurd h1 (by decide)
        · rw [hcy.2] at h1; exact absurd h1 (by decide)
      rw [hno, List.filter_cons, if_pos hc]; rfl
    · rw [if_neg hc, List.filter_cons, if_neg hc]; simp

/-- A stable sort is unique. -/
theorem SS.unique (hs : SWO lt) : ∀ {l1 l2 : List α}, SS lt l1 l2 → Asc lt l2 → l1 = l2
  | [], l2, h, _ => (List.nil_perm.1 h.perm).symm
  | x :: t, [], h, _ => absurd h.perm.length_eq (by simp)
  | x :: t, y :: u, h, h2 => by
    have hx := List.pairwise_cons.1 h.asc
    have hy := List.pairwise_cons.1 h2
    have hxy : lt y x = false := by
      rcases List.mem_cons.1 (h.perm.symm.subset (List.mem_cons_self (a := y))) with e | e
      · rw [e]; exact hs.irrefl x
      · exact hx.1 y e
    have hyx : lt x y = false := by
      rcases List.mem_cons.1 (h.perm.subset (List.mem_cons_self (a := x))) with e | e
      · rw [e]; exact hs.irrefl y
      · exact hy.1 x e
    have e := h.stable x
    rw [List.filter_cons_of_pos (by simp [eqv, hs.irrefl]), List.filter_cons_of_pos (by simp [eqv, hxy, hyx])] at e
    obtain rfl : x = y := (List.cons.inj e).1
    have ht : SS lt t u := by
      refine ⟨h.perm.cons_inv, hx.2, fun c => ?_⟩
      have := h.stable c
      rw [List.filter_cons, List.filter_cons] at this
      split at this
      · exact (List.cons.inj this).2
      · exact this
    rw [SS.unique hs ht hy.2]

/-- Two stable sorts of the same list are the same list. -/
theorem SS.eq (hs : SWO lt) {l1 l2 l : List α} (h1 : SS lt l1 l) (h2 : SS lt l2 l) : l1 = l2 :=
  SS.unique hs ⟨h1.perm.trans h2.perm.symm, h1.asc, fun c => (h1.stable c).trans (h2.stable c).symm⟩ h2.asc

end Pnumpy.Sort
