import Verif.Model.Elementwise
import Verif.Spec.Elementwise
import Verif.Spec.Work
/- Proofs about the access programs of the element-wise kernels. -/
namespace Pnumpy.Elem
open Pnumpy.Spec

def Acc.lane : Acc → Nat
  | .load l _ _ => l
  | .store l _ => l

/-! ### Executing a good access sequence -/

/-- Every access is in order: loads read original data, stores have a loaded register, and two stores
to one address carry the same value. -/
def GoodRun {α : Type} (f : α → α → α) (m0 : Int → α) (V : Nat → Nat → α)
    (evs : List (Nat × Acc)) : Prop :=
  ∀ pre c e post, evs = pre ++ (c, e) :: post →
    match e with
    | .load l x y => f (m0 x) (m0 y) = V c l ∧
        ∀ c' l' a, (c', Acc.store l' a) ∈ pre → a ≠ x ∧ a ≠ y
    | .store l a => (∃ x y, (c, Acc.load l x y) ∈ pre) ∧
        ∀ c' l', (c', Acc.store l' a) ∈ pre → V c' l' = V c l

theorem run_append {α : Type} (f : α → α → α) (s : MState α) (xs ys : List (Nat × Acc)) :
    run f s (xs ++ ys) = (run f s xs).bind fun s' => run f s' ys := by
  induction xs generalizing s with
  | nil => rfl
  | cons x xs ih =>
    obtain ⟨c, e⟩ := x
    simp only [List.cons_append, run]
    cases stepAcc f s c e with
    | none => rfl
    | some s' => simp only [Option.bind_some]; exact ih s'

theorem GoodRun.prefix {α : Type} {f : α → α → α} {m0 : Int → α} {V : Nat → Nat → α}
    {xs ys : List (Nat × Acc)} (h : GoodRun f m0 V (xs ++ ys)) : GoodRun f m0 V xs := by
  intro pre c e post he
  exact h pre c e (post ++ ys) (by rw [he]; simp)

theorem run_good {α : Type} {f : α → α → α} {m0 : Int → α} {V : Nat → Nat → α}
    (n : Nat) : ∀ {evs : List (Nat × Acc)}, evs.length = n → GoodRun f m0 V evs →
    ∃ s, run f ⟨m0, fun _ _ => none⟩ evs = some s ∧
      (∀ c l x y, (c, Acc.load l x y) ∈ evs → s.reg c l = some (V c l)) ∧
      (∀ c l a, (c, Acc.store l a) ∈ evs → s.mem a = V c l) ∧
      (∀ a, (∀ c l, (c, Acc.store l a) ∉ evs) → s.mem a = m0 a) := by
  induction n with
  | zero =>
    intro evs hlen _
    have : evs = [] := List.length_eq_zero_iff.mp hlen
    subst this
    exact ⟨_, rfl, by simp, by simp, by simp⟩
  | succ n ih =>
    intro evs hlen hg
    have hne : evs ≠ [] := by intro h; simp [h] at hlen
    obtain ⟨pre, last, rfl⟩ : ∃ pre last, evs = pre ++ [last] :=
      ⟨evs.dropLast, evs.getLast hne, (List.dropLast_concat_getLast hne).symm⟩
    obtain ⟨c, e⟩ := last
    obtain ⟨s, hs, hreg, hmem, hrest⟩ := ih (by simpa using hlen) hg.prefix
    have hlast := hg pre c e [] rfl
    cases e with
    | load l x y =>
      simp only at hlast
      obtain ⟨hv, hfresh⟩ := hlast
      have hx : s.mem x = m0 x := hrest x fun c' l' h => (hfresh c' l' x h).1 rfl
      have hy : s.mem y = m0 y := hrest y fun c' l' h => (hfresh c' l' y h).2 rfl
      refine ⟨_, by rw [run_append, hs]; rfl, ?_, ?_, ?_⟩
      · intro c' l' x' y' hin
        rw [List.mem_append, List.mem_singleton] at hin
        by_cases hk : c' = c ∧ l' = l
        · obtain ⟨rfl, rfl⟩ := hk
          simp [hx, hy, hv]
        · simp only [if_neg hk]
          rcases hin with hin | hin
          · exact hreg c' l' x' y' hin
          · simp only [Prod.mk.injEq, Acc.load.injEq] at hin
            exact absurd ⟨hin.1, hin.2.1⟩ hk
      · intro c' l' a hin
        rw [List.mem_append, List.mem_singleton] at hin
        rcases hin with hin | hin
        · exact hmem c' l' a hin
        · simp at hin
      · intro a ha
        exact hrest a fun c' l' h => ha c' l' (by simp [h])
    | store l a =>
      simp only at hlast
      obtain ⟨⟨x, y, hl⟩, hsame⟩ := hlast
      have hr := hreg c l x y hl
      refine ⟨{ s with mem := fun a' => if a' = a then V c l else s.mem a' },
        by rw [run_append, hs]; simp [run, stepAcc, hr], ?_, ?_, ?_⟩
      · intro c' l' x' y' hin
        rw [List.mem_append, List.mem_singleton] at hin
        rcases hin with hin | hin
        · exact hreg c' l' x' y' hin
        · simp at hin
      · intro c' l' a' hin
        rw [List.mem_append, List.mem_singleton] at hin
        show (if a' = a then V c l else s.mem a') = _
        rcases hin with hin | hin
        · split
          · rename_i h; subst h; exact (hsame c' l' hin).symm
          · exact hmem c' l' a' hin
        · simp only [Prod.mk.injEq, Acc.store.injEq] at hin
          obtain ⟨rfl, rfl, rfl⟩ := hin
          simp
      · intro a' ha
        show (if a' = a then V c l else s.mem a') = _
        have hne' : a' ≠ a := by
          intro h; subst h
          exact ha c l (by simp)
        rw [if_neg hne']
        exact hrest a' fun c' l' h => ha c' l' (by simp [h])

/-! ### Local shape of a kernel program -/

/-- `es` processes the lanes `lo..hi-1`: loads satisfy `P`, stores go to `o`, each store follows a load
of its lane, each lane is stored. -/
structure Cover (P : Nat → Int → Int → Prop) (o : Nat → Int) (lo hi : Nat) (es : List Acc) : Prop where
  bound : ∀ e ∈ es, lo ≤ e.lane ∧ e.lane < hi
  loads : ∀ l x y, Acc.load l x y ∈ es → P l x y
  stores : ∀ l a, Acc.store l a ∈ es → a = o l
  before : ∀ pre l a post, es = pre ++ Acc.store l a :: post → ∃ x y, Acc.load l x y ∈ pre
  total : ∀ l, lo ≤ l → l < hi → Acc.store l (o l) ∈ es

/-- `Cover`, and no lane is loaded again after it has been stored. -/
structure Seg (P : Nat → Int → Int → Prop) (o : Nat → Int) (lo hi : Nat) (es : List Acc) : Prop
    extends Cover P o lo hi es where
  fresh : ∀ pre l x y post, es = pre ++ Acc.load l x y :: post → ∀ a, Acc.store l a ∉ pre

theorem split_append {α : Type} {xs ys pre post : List α} {e : α} (h : xs ++ ys = pre ++ e :: post) :
    (∃ q, xs = pre ++ e :: q) ∨ (∃ q, pre = xs ++ q ∧ ys = q ++ e :: post) := by
  rcases List.append_eq_append_iff.mp h with ⟨q, h1, h2⟩ | ⟨q, h1, h2⟩
  · exact Or.inr ⟨q, h1, h2⟩
  · cases q with
    | nil => exact Or.inr ⟨[], by simpa using h1.symm, by simpa using h2.symm⟩
    | cons a q =>
      simp only [List.cons_append, List.cons.injEq] at h2
      exact Or.inl ⟨q, by rw [h1, h2.1]⟩

theorem Seg.nil {P o} (lo : Nat) : Seg P o lo lo [] where
  bound := by simp
  loads := by simp
  stores := by simp
  before := by simp
  total := by intro l h1 h2; omega
  fresh := by simp

theorem Seg.append {P o lo mid hi es fs} (h1 : Seg P o lo mid es) (h2 : Seg P o mid hi fs)
    (hlm : lo ≤ mid) (hmh : mid ≤ hi) : Seg P o lo hi (es ++ fs) where
  bound e he := by
    rcases List.mem_append.mp he with he | he
    · have := h1.bound e he; omega
    · have := h2.bound e he; omega
  loads l x y he := by
    rcases List.mem_append.mp he with he | he
    · exact h1.loads l x y he
    · exact h2.loads l x y he
  stores l a he := by
    rcases List.mem_append.mp he with he | he
    · exact h1.stores l a he
    · exact h2.stores l a he
  before pre l a post he := by
    rcases split_append he with ⟨q, hq⟩ | ⟨q, hq, hr⟩
    · exact h1.before pre l a q hq
    · obtain ⟨x, y, hxy⟩ := h2.before q l a post hr
      exact ⟨x, y, by rw [hq]; exact List.mem_append_right _ hxy⟩
  total l hl hh := by
    by_cases hm : l < mid
    · exact List.mem_append_left _ (h1.total l hl hm)
    · exact List.mem_append_right _ (h2.total l (by omega) hh)
  fresh pre l x y post he a hin := by
    rcases split_append he with ⟨q, hq⟩ | ⟨q, hq, hr⟩
    · exact h1.fresh pre l x y q hq a hin
    · rw [hq] at hin
      rcases List.mem_append.mp hin with hin | hin
      · have b1 := (h1.bound _ hin).2
        have b2 := (h2.bound (Acc.load l x y) (by rw [hr]; simp)).1
        simp only [Acc.lane] at b1 b2
        omega
      · exact h2.fresh q l x y post hr a hin

theorem Seg.single {P o} (l : Nat) (x y : Int) (hP : P l x y) :
    Seg P o l (l + 1) [.load l x y, .store l (o l)] where
  bound e he := by
    simp only [List.mem_cons, List.not_mem_nil, or_false] at he
    rcases he with rfl | rfl <;> simp [Acc.lane]
  loads l' x' y' he := by
    simp only [List.mem_cons, Acc.load.injEq, reduceCtorEq, List.not_mem_nil, or_false] at he
    obtain ⟨rfl, rfl, rfl⟩ := he
    exact hP
  stores l' a' he := by
    simp only [List.mem_cons, Acc.store.injEq, reduceCtorEq, List.not_mem_nil, or_false, false_or] at he
    obtain ⟨rfl, rfl⟩ := he
    rfl
  before pre l' a' post he := by
    rcases pre with _ | ⟨p, _ | ⟨q, pre⟩⟩
    · simp at he
    · simp only [List.cons_append, List.nil_append, List.cons.injEq, Acc.store.injEq] at he
      obtain ⟨rfl, ⟨rfl, rfl⟩, rfl⟩ := he
      exact ⟨x, y, by simp⟩
    · have := congrArg List.length he
      simp at this
  total l' h1 h2 := by
    have : l' = l := by omega
    subst this; simp
  fresh pre l' x' y' post he a hin := by
    rcases pre with _ | ⟨p, _ | ⟨q, pre⟩⟩
    · simp at hin
    · simp at he
    · have := congrArg List.length he
      simp at this

theorem seg_scalarLoop {P} {a1 a2 o : Nat → Int} (start cnt : Nat)
    (hP : ∀ l, start ≤ l → l < start + cnt → P l (a1 l) (a2 l)) :
    Seg P o start (start + cnt) (scalarLoop a1 a2 o start cnt) := by
  induction cnt with
  | zero => exact Seg.nil start
  | succ k ih =>
    have : scalarLoop a1 a2 o start (k + 1) = scalarLoop a1 a2 o start k ++
        [.load (start + k) (a1 (start + k)) (a2 (start + k)), .store (start + k) (o (start + k))] := by
      unfold scalarLoop
      rw [List.range_succ, List.flatMap_append]
      simp
    rw [this]
    refine Seg.append (ih fun l h1 h2 => hP l h1 (by omega)) ?_ (by omega) (by omega)
    exact Seg.single (start + k) _ _ (hP _ (by omega) (by omega))

theorem seg_vecStep {P} {a1 a2 o : Nat → Int} (w p : Nat)
    (hP : ∀ l, p ≤ l → l < p + w → P l (a1 l) (a2 l)) :
    Seg P o p (p + w) (vecStep a1 a2 o w p) where
  bound e he := by
    unfold vecStep at he
    simp only [List.mem_append, List.mem_map, List.mem_range] at he
    rcases he with ⟨j, hj, rfl⟩ | ⟨j, hj, rfl⟩ <;> simp only [Acc.lane] <;> omega
  loads l x y he := by
    unfold vecStep at he
    simp only [List.mem_append, List.mem_map, List.mem_range, reduceCtorEq, and_false, exists_false,
      or_false, Acc.load.injEq] at he
    obtain ⟨j, hj, rfl, rfl, rfl⟩ := he
    exact hP _ (by omega) (by omega)
  stores l a he := by
    unfold vecStep at he
    simp only [List.mem_append, List.mem_map, List.mem_range, reduceCtorEq, and_false, exists_false,
      false_or, Acc.store.injEq] at he
    obtain ⟨j, hj, rfl, rfl⟩ := he
    rfl
  before pre l a post he := by
    unfold vecStep at he
    rcases split_append he with ⟨q, hq⟩ | ⟨q, hq, hr⟩
    · have : Acc.store l a ∈ (List.range w).map
          (fun j => Acc.load (p + j) (a1 (p + j)) (a2 (p + j))) := by rw [hq]; simp
      simp at this
    · have : Acc.store l a ∈ (List.range w).map (fun j => Acc.store (p + j) (o (p + j))) := by
        rw [hr]; simp
      simp only [List.mem_map, List.mem_range, Acc.store.injEq] at this
      obtain ⟨j, hj, rfl, rfl⟩ := this
      refine ⟨a1 (p + j), a2 (p + j), ?_⟩
      rw [hq]
      refine List.mem_append_left _ ?_
      exact List.mem_map.mpr ⟨j, List.mem_range.mpr hj, rfl⟩
  total l h1 h2 := by
    unfold vecStep
    refine List.mem_append_right _ (List.mem_map.mpr ⟨l - p, List.mem_range.mpr (by omega), ?_⟩)
    rw [show p + (l - p) = l by omega]
  fresh pre l x y post he a hin := by
    unfold vecStep at he
    rcases split_append he with ⟨q, hq⟩ | ⟨q, hq, hr⟩
    · have : Acc.store l a ∈ (List.range w).map
          (fun j => Acc.load (p + j) (a1 (p + j)) (a2 (p + j))) := by
        rw [hq]; exact List.mem_append_left _ hin
      simp at this
    · have : Acc.load l x y ∈ (List.range w).map (fun j => Acc.store (p + j) (o (p + j))) := by
        rw [hr]; simp
      simp at this

theorem seg_vecDo {P} {a1 a2 o : Nat → Int} {w : Nat} (hw : 0 < w) (pEnd p : Nat)
    (hdvd : w ∣ pEnd - p) (hlt : p < pEnd)
    (hP : ∀ l, p ≤ l → l < pEnd → P l (a1 l) (a2 l)) :
    (vecDo a1 a2 o w pEnd p).2 = pEnd ∧ Seg P o p pEnd (vecDo a1 a2 o w pEnd p).1 := by
  have hle : w ≤ pEnd - p := Nat.le_of_dvd (by omega) hdvd
  rw [vecDo]
  split
  · rename_i h
    have hd' : w ∣ pEnd - (p + w) := by
      rw [Nat.sub_add_eq]; exact Nat.dvd_sub hdvd (Nat.dvd_refl w)
    obtain ⟨e1, e2⟩ := seg_vecDo (a1 := a1) (a2 := a2) (o := o) hw pEnd (p + w) hd' h.1
      (fun l h1 h2 => hP l (by omega) h2)
    refine ⟨e1, ?_⟩
    exact Seg.append (seg_vecStep w p fun l h1 h2 => hP l h1 (by omega)) e2 (by omega) (by omega)
  · rename_i h
    have he : p + w = pEnd := by omega
    refine ⟨he, ?_⟩
    have := seg_vecStep (P := P) (a1 := a1) (a2 := a2) (o := o) w p (fun l h1 h2 => hP l h1 (by omega))
    rw [he] at this
    exact this
termination_by pEnd - p

/-- For a while loop the final position is the first `p + k*w ≥ pEnd`. -/
theorem seg_vecWhile {P} {a1 a2 o : Nat → Int} {w : Nat} (hw : 0 < w) (pEnd p : Nat)
    (hi : Nat) (hhi : p < pEnd → pEnd + w ≤ hi + 1) (hp : p ≤ hi)
    (hP : ∀ l, p ≤ l → l < hi → P l (a1 l) (a2 l)) :
    p ≤ (vecWhile a1 a2 o w pEnd p).2 ∧ (vecWhile a1 a2 o w pEnd p).2 ≤ hi ∧
    (w ∣ pEnd - p → p ≤ pEnd → (vecWhile a1 a2 o w pEnd p).2 = pEnd) ∧
    Seg P o p (vecWhile a1 a2 o w pEnd p).2 (vecWhile a1 a2 o w pEnd p).1 := by
  rw [vecWhile]
  split
  · rename_i h
    have hh := hhi h.1
    obtain ⟨e0, e1, e2, e3⟩ := seg_vecWhile (a1 := a1) (a2 := a2) (o := o) hw pEnd (p + w) hi
      (fun _ => hh) (by omega) (fun l h1 h2 => hP l (by omega) h2)
    refine ⟨by simp only; omega, e1, ?_, ?_⟩
    · intro hd hle
      have hle' : w ≤ pEnd - p := Nat.le_of_dvd (by omega) hd
      exact e2 (by rw [Nat.sub_add_eq]; exact Nat.dvd_sub hd (Nat.dvd_refl w)) (by omega)
    · exact Seg.append (seg_vecStep w p fun l h1 h2 => hP l h1 (by omega)) e3 (by omega) e0
  · rename_i h
    refine ⟨Nat.le_refl _, hp, ?_, Seg.nil p⟩
    intro _ hle
    show p = pEnd
    omega
termination_by pEnd - p

theorem seg_vecFor {P} {a1 a2 o : Nat → Int} (w cnt : Nat)
    (hP : ∀ l, l < w * cnt → P l (a1 l) (a2 l)) :
    Seg P o 0 (w * cnt) (vecFor a1 a2 o w cnt) := by
  induction cnt with
  | zero => exact Seg.nil 0
  | succ k ih =>
    have : vecFor a1 a2 o w (k + 1) = vecFor a1 a2 o w k ++ vecStep a1 a2 o w (w * k) := by
      unfold vecFor
      rw [List.range_succ, List.flatMap_append]
      simp
    rw [this, Nat.mul_succ]
    rw [Nat.mul_succ] at hP
    exact Seg.append (ih fun l h => hP l (by omega))
      (seg_vecStep w (w * k) fun l _ h2 => hP l h2) (by omega) (by omega)

theorem and_mask {n w : Nat} (hw : ∃ j, w = 2 ^ j) : n &&& (w - 1) = n % w := by
  obtain ⟨j, rfl⟩ := hw
  exact Nat.and_two_pow_sub_one_eq_mod n j

theorem pow2_pos {w : Nat} (hw : ∃ j, w = 2 ^ j) : 0 < w := by
  obtain ⟨j, rfl⟩ := hw; exact Nat.two_pow_pos j

theorem seg_vecTail {P} {v1 v2 a1 a2 o : Nat → Int} {w : Nat} (hw : ∃ j, w = 2 ^ j) (n : Nat)
    (hV : ∀ l, l < n → P l (v1 l) (v2 l)) (hP : ∀ l, l < n → P l (a1 l) (a2 l)) :
    Seg P o 0 n (vecTail v1 v2 a1 a2 o w n) := by
  have hw0 := pow2_pos hw
  unfold vecTail
  split
  · rename_i hn
    have hdm := Nat.div_add_mod n w
    have hq : 0 < n / w := Nat.div_pos hn hw0
    have hpos : 0 < w * (n / w) := Nat.mul_pos hw0 hq
    obtain ⟨e1, e2⟩ := seg_vecDo (P := P) (a1 := v1) (a2 := v2) (o := o) hw0 (w * (n / w)) 0
      (by rw [Nat.sub_zero]; exact Nat.dvd_mul_right _ _) hpos (fun l _ h2 => hV l (by omega))
    simp only [e1, and_mask hw]
    have := seg_scalarLoop (P := P) (a1 := a1) (a2 := a2) (o := o) (w * (n / w)) (n % w)
      (fun l _ h2 => hP l (by omega))
    rw [hdm] at this
    exact Seg.append e2 this (by omega) (by omega)
  · have := seg_scalarLoop (P := P) (a1 := a1) (a2 := a2) (o := o) 0 n (fun l _ h2 => hP l (by omega))
    rwa [Nat.zero_add] at this

theorem seg_inplaceScalar {P} {v1 v2 a1 a2 o : Nat → Int} {w : Nat} (hw : ∃ j, w = 2 ^ j)
    (size : Nat) (addr : Int) (n : Nat)
    (hV : ∀ l, l < n → P l (v1 l) (v2 l)) (hP : ∀ l, l < n → P l (a1 l) (a2 l)) :
    Seg P o 0 n (inplaceScalar v1 v2 a1 a2 o size w addr n) := by
  have hw0 := pow2_pos hw
  unfold inplaceScalar
  simp only
  have hle : inplacePre size addr n ≤ n := by
    unfold inplacePre
    simp only
    split
    · rename_i h; exact h.2
    · omega
  generalize inplacePre size addr n = pre at hle
  have h1 := seg_scalarLoop (P := P) (a1 := a1) (a2 := a2) (o := o) 0 pre
    (fun l _ h2 => hP l (by omega))
  rw [Nat.zero_add] at h1
  refine Seg.append h1 ?_ (by omega) hle
  split
  · rename_i hn
    have hdm := Nat.div_add_mod (n - pre) w
    obtain ⟨_, _, e2, e3⟩ := seg_vecWhile (a1 := v1) (a2 := v2) (o := o) hw0
      (pre + w * ((n - pre) / w)) pre (pre + w * ((n - pre) / w) + w) (by intro; omega) (by omega)
      (P := fun l x y => l < n → P l x y) (fun l _ _ hl => hV l hl)
    have e2' := e2 (by rw [Nat.add_sub_cancel_left]; exact Nat.dvd_mul_right _ _) (by omega)
    rw [e2'] at e3
    have e4 : Seg P o pre (pre + w * ((n - pre) / w))
        (vecWhile v1 v2 o w (pre + w * ((n - pre) / w)) pre).1 :=
      { e3 with
        loads := fun l x y h => e3.loads l x y h (by
          have := (e3.bound _ h).2; simp only [Acc.lane] at this; omega) }
    simp only [e2', and_mask hw]
    have h5 := seg_scalarLoop (P := P) (a1 := a1) (a2 := a2) (o := o) (pre + w * ((n - pre) / w))
      ((n - pre) % w) (fun l _ h2 => hP l (by omega))
    rw [show pre + w * ((n - pre) / w) + (n - pre) % w = n by omega] at h5
    exact Seg.append e4 h5 (by omega) (by omega)
  · have := seg_scalarLoop (P := P) (a1 := a1) (a2 := a2) (o := o) pre (n - pre)
      (fun l _ h2 => hP l (by omega))
    rwa [show pre + (n - pre) = n by omega] at this

end Pnumpy.Elem
