import Verif.Proofs.HeapSort
/-
Quicksort.
-/
namespace Pnumpy.Sort
variable {α : Type} {cmp : α → α → Option Bool} {lt : α → α → Bool} {P : α → Prop}

/-- Everything at positions `[lo, hi)` is at most `v`. -/
def AtMost (lt : α → α → Bool) (v : α) (lo hi : Nat) (a : List α) : Prop :=
  ∀ p x, lo ≤ p → p < hi → a[p]? = some x → lt v x = false

/-- Everything at positions `[lo, hi)` is at least `v`. -/
def AtLeast (lt : α → α → Bool) (v : α) (lo hi : Nat) (a : List α) : Prop :=
  ∀ p x, lo ≤ p → p < hi → a[p]? = some x → lt x v = false

/-- The upward scan stops at the latest at a position `s` that is not less than the pivot. -/
theorem scanUp_ok (hc : Computes cmp lt P) {vp : α} (hv : P vp) {a : List α} {lo hi : Nat} (hP : AllIn P lo hi a) {s : Nat} {z : α}
    (hz : a[s]? = some z) (hsz : lt z vp = false) (m : Nat) :
    ∀ pi, s - pi = m → pi < s → lo ≤ pi → s < hi → ∃ pi', scanUp cmp vp a pi = some pi' ∧ pi < pi' ∧ pi' ≤ s ∧
      (∀ p x, pi < p → p < pi' → a[p]? = some x → lt x vp = true) ∧
      (∀ x, a[pi']? = some x → lt x vp = false) := by
  induction m with
  | zero => intro pi h1 h2; omega
  | succ m ih =>
    intro pi h1 h2 hlo hhi
    obtain ⟨x, hx⟩ := get_some a (i := pi + 1) (by have := get_lt hz; omega)
    rw [scanUp]
    simp only [hx, Option.bind_eq_bind, Option.bind_some, hc x vp (hP _ x (by omega) (by omega) hx) hv]
    cases hb : lt x vp
    · refine ⟨pi + 1, by simp, by omega, by omega, ?_, ?_⟩
      · intro p y h3 h4; omega
      · intro y hy; rw [hx] at hy; injection hy with hy; subst hy; exact hb
    · have hne : pi + 1 ≠ s := by
        rintro rfl
        rw [hz] at hx; injection hx with hx; subst hx
        rw [hsz] at hb; exact absurd hb (by decide)
      obtain ⟨pi', r1, r2, r3, r4, r5⟩ := ih (pi + 1) (by omega) (by omega) (by omega) hhi
      refine ⟨pi', by simpa using r1, by omega, r3, ?_, r5⟩
      intro p y h3 h4 hy
      by_cases hp : p = pi + 1
      · rw [hp, hx] at hy; injection hy with hy; subst hy; exact hb
      · exact r4 p y (by omega) h4 hy

/-- The downward scan stops at the latest at a position `s` that is not greater than the pivot. -/
theorem scanDown_ok (hc : Computes cmp lt P) {vp : α} (hv : P vp) {a : List α} {lo hi : Nat} (hP : AllIn P lo hi a) {s : Nat} {z : α}
    (hz : a[s]? = some z) (hsz : lt vp z = false) (m : Nat) :
    ∀ pj, pj - s = m → s < pj → pj ≤ a.length → lo ≤ s → pj ≤ hi → ∃ pj', scanDown cmp vp a pj = some pj' ∧ pj' < pj ∧ s ≤ pj' ∧
      (∀ p x, pj' < p → p < pj → a[p]? = some x → lt vp x = true) ∧
      (∀ x, a[pj']? = some x → lt vp x = false) := by
  induction m with
  | zero => intro pj h1 h2; omega
  | succ m ih =>
    intro pj h1 h2 h3 hlo hhi
    obtain ⟨x, hx⟩ := get_some a (i := pj - 1) (by omega)
    rw [scanDown, if_neg (by omega)]
    simp only [hx, Option.bind_eq_bind, Option.bind_some, hc vp x hv (hP _ x (by omega) (by omega) hx)]
    cases hb : lt vp x
    · refine ⟨pj - 1, by simp, by omega, by omega, ?_, ?_⟩
      · intro p y h3 h4; omega
      · intro y hy; rw [hx] at hy; injection hy with hy; subst hy; exact hb
    · have hne : pj - 1 ≠ s := by
        rintro rfl
        rw [hz] at hx; injection hx with hx; subst hx
        rw [hsz] at hb; exact absurd hb (by decide)
      obtain ⟨pj', r1, r2, r3, r4, r5⟩ := ih (pj - 1) (by omega) (by omega) (by omega) hlo (by omega)
      refine ⟨pj', by simpa using r1, by omega, r3, ?_, r5⟩
      intro p y h3 h4 hy
      by_cases hp : p = pj - 1
      · rw [hp, hx] at hy; injection hy with hy; subst hy; exact hb
      · exact r4 p y (by omega) (by omega) hy

/-- The partition loop on the window `[pl, pr)`; position `pr - 1`... the pivot waits at `pj0`. -/
theorem partLoop_ok (hc : Computes cmp lt P) (hs : SWO lt) {vp : α} (hv : P vp) {pl q : Nat} (m : Nat) :
    ∀ (a : List α) (pi pj : Nat), pj - pi = m → pl ≤ pi → pi < pj → pj ≤ q → q < a.length → AllIn P pl (q + 1) a →
    AtMost lt vp pl (pi + 1) a → AtLeast lt vp pj (q + 1) a →
    ∃ a' i, partLoop cmp vp a pi pj = some (a', i) ∧ pi < i ∧ i ≤ q ∧ Frame (pi + 1) pj a' a ∧
      AtMost lt vp pl i a' ∧ AtLeast lt vp i (q + 1) a' := by
  induction m using Nat.strongRecOn with
  | _ m ih =>
  intro a pi pj hm h1 h2 h3 h4 hP hlo hhi
  obtain ⟨z, hz⟩ := get_some a (i := pj) (by omega)
  obtain ⟨w, hw⟩ := get_some a (i := pi) (by omega)
  obtain ⟨i, u1, u2, u3, u4, u5⟩ := scanUp_ok hc hv hP hz (hhi pj z (by omega) (by omega) hz) _ pi rfl h2 h1 (by omega)
  obtain ⟨j, d1, d2, d3, d4, d5⟩ := scanDown_ok hc hv hP hw (hlo pi w h1 (by omega) hw) _ pj rfl h2 (by omega) h1 (by omega)
  rw [partLoop]
  simp only [u1, d1, Option.bind_eq_bind, Option.bind_some]
  by_cases hij : i ≥ j
  · rw [if_pos hij]
    refine ⟨a, i, rfl, u2, by omega, Frame.refl _ _ _, ?_, ?_⟩
    · intro p x p1 p2 hx
      by_cases hp : p < pi + 1
      · exact hlo p x p1 hp hx
      · exact hs.asymm _ _ (u4 p x (by omega) p2 hx)
    · intro p x p1 p2 hx
      by_cases hp : p = i
      · subst hp; exact u5 x hx
      · by_cases hp2 : p < pj
        · exact hs.asymm _ _ (d4 p x (by omega) hp2 hx)
        · exact hhi p x (by omega) p2 hx
  · rw [if_neg hij]
    obtain ⟨x, hx⟩ := get_some a (i := i) (by omega)
    obtain ⟨y, hy⟩ := get_some a (i := j) (by omega)
    simp only [swap_some hx hy, Option.bind_some]
    have hfr : Frame (pi + 1) pj ((a.set i y).set j x) a := frame_swap (by omega) (by omega) (by omega) (by omega) hx hy
    have hget : ∀ p, ((a.set i y).set j x)[p]? = if j = p then some x else if i = p then some y else a[p]? := by
      intro p
      rw [get_set _ _ _ _ (by rw [List.length_set]; exact get_lt hy), get_set _ _ _ _ (get_lt hx)]
    obtain ⟨a', k, r1, r2, r3, r4, r5, r6⟩ := ih (j - i) (by omega) ((a.set i y).set j x) i j rfl (by omega) (by omega)
      (by omega) (by simpa using h4) ((hfr.mono (by omega) (by omega)).allIn hP) (by
        intro p t p1 p2 ht
        rw [hget, if_neg (by omega)] at ht
        by_cases hp : i = p
        · rw [if_pos hp] at ht; injection ht with ht; subst ht; exact d5 y hy
        · rw [if_neg hp] at ht
          by_cases hp2 : p < pi + 1
          · exact hlo p t p1 hp2 ht
          · exact hs.asymm _ _ (u4 p t (by omega) (by omega) ht)) (by
        intro p t p1 p2 ht
        rw [hget] at ht
        by_cases hp : j = p
        · rw [if_pos hp] at ht; injection ht with ht; subst ht; exact u5 x hx
        · rw [if_neg hp, if_neg (by omega)] at ht
          by_cases hp2 : p < pj
          · exact hs.asymm _ _ (d4 p t (by omega) hp2 ht)
          · exact hhi p t (by omega) p2 ht)
    exact ⟨a', k, r1, by omega, r3, (r4.mono (by omega) (by omega)).trans hfr, r5, r6⟩

/-- After `if (LT(*p, *q)) swap(*p, *q)` position `p` is not less than position `q`. -/
theorem condSwap_ok (hc : Computes cmp lt P) (hs : SWO lt) {a : List α} {lo hi p q : Nat} (hP : AllIn P lo hi a)
    (hp1 : lo ≤ p) (hp2 : p < hi) (hq1 : lo ≤ q) (hq2 : q < hi) (hhi : hi ≤ a.length) (hpq : p ≠ q) :
    ∃ a' x y, condSwap cmp a p q = some a' ∧ Frame lo hi a' a ∧ a'[p]? = some x ∧ a'[q]? = some y ∧ lt x y = false ∧
      (∀ r, r ≠ p → r ≠ q → a'[r]? = a[r]?) ∧
      (∀ x0 y0, a[p]? = some x0 → a[q]? = some y0 → lt x0 y0 = false → a' = a) ∧
      (∀ x0 y0, a[p]? = some x0 → a[q]? = some y0 → (x = x0 ∧ y = y0) ∨ (x = y0 ∧ y = x0 ∧ lt x0 y0 = true)) := by
  obtain ⟨x, hx⟩ := get_some a (i := p) (by omega)
  obtain ⟨y, hy⟩ := get_some a (i := q) (by omega)
  unfold condSwap
  simp only [hx, hy, Option.bind_eq_bind, Option.bind_some, hc x y (hP _ x hp1 hp2 hx) (hP _ y hq1 hq2 hy)]
  cases hb : lt x y
  · refine ⟨a, x, y, by simp, Frame.refl _ _ _, hx, hy, hb, fun _ _ _ => rfl, fun _ _ _ _ _ => rfl, ?_⟩
    intro x0 y0 h1 h2
    injection h1 with h1; injection h2 with h2
    exact Or.inl ⟨h1, h2⟩
  · have hget : ∀ r, ((a.set p y).set q x)[r]? = if q = r then some x else if p = r then some y else a[r]? := by
      intro r
      rw [get_set _ _ _ _ (by rw [List.length_set]; exact get_lt hy), get_set _ _ _ _ (get_lt hx)]
    refine ⟨(a.set p y).set q x, y, x, by simp [swap_some hx hy], frame_swap hp1 hp2 hq1 hq2 hx hy, ?_, ?_,
      hs.asymm _ _ hb, ?_, ?_, ?_⟩
    · rw [hget, if_neg (by omega), if_pos rfl]
    · rw [hget, if_pos rfl]
    · intro r h1 h2; rw [hget, if_neg (by omega), if_neg (by omega)]
    · intro x0 y0 h1 h2 h3
      injection h1 with h1; injection h2 with h2
      rw [← h1, ← h2, hb] at h3; exact absurd h3 (by decide)
    · intro x0 y0 h1 h2
      injection h1 with h1; injection h2 with h2
      exact Or.inr ⟨h2, h1, by rw [← h1, ← h2]; exact hb⟩

theorem partition_ok (hc : Computes cmp lt P) (hs : SWO lt) {a : List α} {pl pr : Nat} (hP : AllIn P pl (pr + 1) a)
    (h1 : pl + 2 < pr) (h2 : pr < a.length) :
    ∃ a' i vp, partition cmp a pl pr = some (a', i) ∧ pl < i ∧ i < pr ∧ Frame pl (pr + 1) a' a ∧
      a'[i]? = some vp ∧ AtMost lt vp pl i a' ∧ AtLeast lt vp (i + 1) (pr + 1) a' := by
  unfold partition
  have hpm : ∃ pm, pl + (pr - pl) / 2 = pm ∧ pl < pm ∧ pm < pr - 1 := ⟨_, rfl, by omega, by omega⟩
  obtain ⟨pm, hpm0, hpm1, hpm2⟩ := hpm
  simp only [hpm0]
  obtain ⟨a1, x1, y1, r1, f1, g1, g1', l1, o1, _, _⟩ := condSwap_ok hc hs hP (lo := pl) (hi := pr + 1) (p := pm) (q := pl)
    (by omega) (by omega) (by omega) (by omega) (by omega) (by omega)
  have hP1 := f1.allIn hP
  obtain ⟨a2, x2, y2, r2, f2, g2, g2', l2, o2, _, k2⟩ := condSwap_ok hc hs hP1 (lo := pl) (hi := pr + 1) (p := pr) (q := pm)
    (by omega) (by omega) (by omega) (by omega) (by rw [f1.len]; omega) (by omega)
  have hP2 := f2.allIn hP1
  obtain ⟨a3, x3, y3, r3, f3, g3, g3', l3, o3, _, k3⟩ := condSwap_ok hc hs hP2 (lo := pl) (hi := pr + 1) (p := pm) (q := pl)
    (by omega) (by omega) (by omega) (by omega) (by rw [f2.len, f1.len]; omega) (by omega)
  have hP3 := f3.allIn hP2
  have hf3 : Frame pl (pr + 1) a3 a := f3.trans (f2.trans f1)
  -- position pr is not less than position pm
  have hpr : ∃ z, a3[pr]? = some z ∧ lt z x3 = false := by
    have e : a3[pr]? = a2[pr]? := o3 pr (by omega) (by omega)
    have e2 : a2[pl]? = some y1 := by rw [o2 pl (by omega) (by omega)]; exact g1'
    refine ⟨x2, by rw [e]; exact g2, ?_⟩
    rcases k3 y2 y1 g2' e2 with ⟨hx, _⟩ | ⟨hx, _, _⟩
    · rw [hx]; exact l2
    · -- pivot is now the old pl value y1 <= x1, and x2 is the larger of (pr, x1)
      obtain ⟨z0, hz0⟩ := get_some a1 (i := pr) (by rw [f1.len]; omega)
      rw [hx]
      rcases k2 z0 x1 hz0 g1 with ⟨e3, e4⟩ | ⟨e3, e4, e5⟩
      · -- no swap: x2 = z0 not less than x1, x1 not less than y1
        have hy2 : lt x2 x1 = false := by rw [← e4]; exact l2
        exact hs.geTrans l1 hy2
      · rw [e3]; exact l1
  obtain ⟨z, hz, hzl⟩ := hpr
  simp only [r1, r2, r3, g3, Option.bind_eq_bind, Option.bind_some]
  obtain ⟨t, ht⟩ := get_some a3 (i := pr - 1) (by rw [hf3.len]; omega)
  simp only [swap_some g3 ht, Option.bind_some]
  have f4 : Frame pl (pr + 1) ((a3.set pm t).set (pr - 1) x3) a3 := frame_swap (by omega) (by omega) (by omega) (by omega) g3 ht
  have hget : ∀ p, ((a3.set pm t).set (pr - 1) x3)[p]? =
      if pr - 1 = p then some x3 else if pm = p then some t else a3[p]? := by
    intro p
    rw [get_set _ _ _ _ (by rw [List.length_set]; exact get_lt ht), get_set _ _ _ _ (get_lt g3)]
  have hf4 := f4.trans hf3
  obtain ⟨a5, i, p1, p2, p3, p4, p5, p6⟩ := partLoop_ok hc hs (vp := x3) (hP3 _ x3 (by omega) (by omega) g3) (pl := pl) (q := pr - 1) _
    ((a3.set pm t).set (pr - 1) x3) pl (pr - 1) rfl (by omega) (by omega) (by omega) (by rw [hf4.len]; omega) ((hf4.allIn hP).mono (Nat.le_refl _) (by omega))
    (by
      intro p x q1 q2 hx
      have : p = pl := by omega
      subst this
      rw [hget, if_neg (by omega), if_neg (by omega), g3'] at hx
      injection hx with hx; subst hx; exact l3)
    (by
      intro p x q1 q2 hx
      have : p = pr - 1 := by omega
      subst this
      rw [hget, if_pos rfl] at hx
      injection hx with hx; subst hx; exact hs.irrefl _)
  simp only [p1, Option.bind_some]
  -- final swap of pi and pr - 1
  have hpiv : a5[pr - 1]? = some x3 := by
    rw [p4.out _ (by omega), hget, if_pos rfl]
  have hprv : a5[pr]? = some z := by
    rw [p4.out _ (by omega), hget, if_neg (by omega), if_neg (by omega), hz]
  obtain ⟨u, hu⟩ := get_some a5 (i := i) (by rw [p4.len, hf4.len]; omega)
  simp only [swap_some hu hpiv, Option.bind_some]
  have f6 : Frame pl (pr + 1) ((a5.set i x3).set (pr - 1) u) a5 := frame_swap (by omega) (by omega) (by omega) (by omega) hu hpiv
  have hget6 : ∀ p, ((a5.set i x3).set (pr - 1) u)[p]? =
      if pr - 1 = p then some u else if i = p then some x3 else a5[p]? := by
    intro p
    rw [get_set _ _ _ _ (by rw [List.length_set]; exact get_lt hpiv), get_set _ _ _ _ (get_lt hu)]
  refine ⟨_, i, x3, rfl, p2, by omega, f6.trans ((p4.mono (by omega) (by omega)).trans hf4), ?_, ?_, ?_⟩
  · rw [hget6]
    by_cases hi : pr - 1 = i
    · rw [if_pos hi]; rw [← hi, hpiv] at hu; exact hu.symm
    · rw [if_neg hi, if_pos rfl]
  · intro p x q1 q2 hx
    rw [hget6, if_neg (by omega), if_neg (by omega)] at hx
    exact p5 p x q1 q2 hx
  · intro p x q1 q2 hx
    rw [hget6] at hx
    by_cases hp : pr - 1 = p
    · rw [if_pos hp] at hx; injection hx with hx; subst hx
      exact p6 i u (by omega) (by omega) hu
    · rw [if_neg hp, if_neg (by omega)] at hx
      by_cases hp2 : p = pr
      · rw [hp2, hprv] at hx; injection hx with hx; subst hx; exact hzl
      · exact p6 p x (by omega) (by omega) hx

/-! ### The partitions still to be sorted -/

/-- Sum of (length + 1) over the pending partitions. -/
def weight : List (Nat × Nat) → Nat
  | [] => 0
  | s :: st => (s.2 - s.1 + 1) + weight st

/-- Pending partitions lie in `[lo, hi)` and are disjoint. -/
def Disj (lo hi : Nat) : List (Nat × Nat) → Prop
  | [] => True
  | s :: st => lo ≤ s.1 ∧ s.1 ≤ s.2 ∧ s.2 ≤ hi ∧ (∀ t ∈ st, s.2 ≤ t.1 ∨ t.2 ≤ s.1) ∧ Disj lo hi st

/-- Any two positions outside a common pending partition are in order. -/
def Settled (lt : α → α → Bool) (lo hi : Nat) (segs : List (Nat × Nat)) (a : List α) : Prop :=
  ∀ p q x y, lo ≤ p → p < q → q < hi → a[p]? = some x → a[q]? = some y →
    (∃ s ∈ segs, s.1 ≤ p ∧ q < s.2) ∨ lt y x = false

theorem Settled.frame {lo hi : Nat} {s : Nat × Nat} {segs : List (Nat × Nat)} {a a' : List α}
    (h : Settled lt lo hi (s :: segs) a) (hd : Disj lo hi (s :: segs)) (hf : Frame s.1 s.2 a' a) :
    Settled lt lo hi (s :: segs) a' := by
  intro p q x y h1 h2 h3 hx hy
  obtain ⟨d1, d2, d3, d4, _⟩ := hd
  by_cases hp : s.1 ≤ p ∧ p < s.2
  · by_cases hq : s.1 ≤ q ∧ q < s.2
    · exact Or.inl ⟨s, by simp, hp.1, hq.2⟩
    · rw [hf.out q hq] at hy
      obtain ⟨p', e1, e2, e3⟩ := hf.inn p hp.1 hp.2
      rw [e3] at hx
      rcases h p' q x y (by omega) (by omega) h3 hx hy with ⟨t, ht, t1, t2⟩ | hlt
      · rcases List.mem_cons.1 ht with rfl | ht
        · omega
        · rcases d4 t ht with h5 | h5 <;> omega
      · exact Or.inr hlt
  · rw [hf.out p hp] at hx
    by_cases hq : s.1 ≤ q ∧ q < s.2
    · obtain ⟨q', e1, e2, e3⟩ := hf.inn q hq.1 hq.2
      rw [e3] at hy
      rcases h p q' x y h1 (by omega) (by omega) hx hy with ⟨t, ht, t1, t2⟩ | hlt
      · rcases List.mem_cons.1 ht with rfl | ht
        · omega
        · rcases d4 t ht with h5 | h5 <;> omega
      · exact Or.inr hlt
    · rw [hf.out q hq] at hy
      exact h p q x y h1 h2 h3 hx hy

/-- A sorted partition is no longer pending. -/
theorem Settled.done {lo hi : Nat} {s : Nat × Nat} {segs : List (Nat × Nat)} {a : List α}
    (h : Settled lt lo hi (s :: segs) a) (hs : AscAt lt s.1 s.2 a) : Settled lt lo hi segs a := by
  intro p q x y h1 h2 h3 hx hy
  rcases h p q x y h1 h2 h3 hx hy with ⟨t, ht, t1, t2⟩ | hlt
  · rcases List.mem_cons.1 ht with rfl | ht
    · exact Or.inr (hs p q x y t1 h2 t2 hx hy)
    · exact Or.inl ⟨t, ht, t1, t2⟩
  · exact Or.inr hlt

/-- Splitting a partition at a pivot. -/
theorem Settled.split {lo hi l i e : Nat} {segs : List (Nat × Nat)} {a : List α} {vp : α} (hs : SWO lt)
    (h : Settled lt lo hi ((l, e) :: segs) a) (hv : a[i]? = some vp) (h1 : AtMost lt vp l i a)
    (h2 : AtLeast lt vp (i + 1) e a) : Settled lt lo hi ((l, i) :: (i + 1, e) :: segs) a := by
  intro p q x y e1 e2 e3 hx hy
  rcases h p q x y e1 e2 e3 hx hy with ⟨t, ht, t1, t2⟩ | hlt
  · rcases List.mem_cons.1 ht with rfl | ht
    · dsimp only at t1 t2
      by_cases hq : q < i
      · exact Or.inl ⟨(l, i), by simp, t1, hq⟩
      · by_cases hp : i < p
        · exact Or.inl ⟨(i + 1, e), by simp, hp, t2⟩
        · right
          have hx' : lt vp x = false := by
            by_cases hpi : p = i
            · rw [hpi, hv] at hx; injection hx with hx; subst hx; exact hs.irrefl _
            · exact h1 p x t1 (by omega) hx
          have hy' : lt y vp = false := by
            by_cases hqi : q = i
            · rw [hqi, hv] at hy; injection hy with hy; subst hy; exact hs.irrefl _
            · exact h2 q y (by omega) t2 hy
          exact hs.geTrans hx' hy'
    · exact Or.inl ⟨t, by simp [ht], t1, t2⟩
  · exact Or.inr hlt

theorem Settled.perm {lo hi : Nat} {s1 s2 : List (Nat × Nat)} {a : List α} (h : Settled lt lo hi s1 a)
    (hp : ∀ s, s ∈ s1 → s ∈ s2) : Settled lt lo hi s2 a := by
  intro p q x y e1 e2 e3 hx hy
  rcases h p q x y e1 e2 e3 hx hy with ⟨t, ht, t1, t2⟩ | hlt
  · exact Or.inl ⟨t, hp t ht, t1, t2⟩
  · exact Or.inr hlt

/-- Segments of the stack. -/
def segs (st : QStack) : List (Nat × Nat) := st.map fun t => (t.1, t.2.1)

/-- The stack stays shallow because the larger part is pushed. -/
def Shallow (N : Nat) : QStack → Prop
  | [] => True
  | t :: st => 2 ^ st.length * (t.2.1 - t.1 + 1) ≤ N + 1 ∧ Shallow N st

theorem push_ok {N : Nat} (hN : N < 2 ^ 63) {st : QStack} {x : Nat × Nat × Int} {c : Nat} (hc : 32 ≤ c)
    (h : 2 ^ st.length * (c + 1) ≤ N + 1) : push st x = some (x :: st) := by
  unfold push
  rw [if_pos]
  rcases Nat.lt_or_ge st.length 63 with h1 | h1
  · omega
  · have : 2 ^ 63 ≤ 2 ^ st.length := Nat.pow_le_pow_right (by decide) h1
    have h2 : 2 ^ 63 * 33 ≤ 2 ^ st.length * (c + 1) := Nat.mul_le_mul this (by omega)
    omega

theorem half_bound {k N c c' : Nat} (h : 2 ^ k * (c + 1) ≤ N + 1) (hc : 2 * (c' + 1) ≤ c + 1) :
    2 ^ (k + 1) * (c' + 1) ≤ N + 1 := by
  have : 2 ^ (k + 1) * (c' + 1) = 2 ^ k * (2 * (c' + 1)) := by rw [Nat.pow_succ, Nat.mul_assoc]
  rw [this]
  exact Nat.le_trans (Nat.mul_le_mul_left _ hc) h

theorem part_bound {k N c c' : Nat} (h : 2 ^ k * (c + 1) ≤ N + 1) (hc : c' ≤ c) :
    2 ^ k * (c' + 1) ≤ N + 1 :=
  Nat.le_trans (Nat.mul_le_mul_left _ (by omega)) h

theorem qsWhile_ok (hc : Computes cmp lt P) (hs : SWO lt) {lo hi N : Nat} (hN : N < 2 ^ 63) (m : Nat) :
    ∀ (a : List α) (pl e : Nat) (cd : Int) (st : QStack), e - pl = m → hi ≤ a.length → AllIn P lo hi a →
    Disj lo hi ((pl, e) :: segs st) → Settled lt lo hi ((pl, e) :: segs st) a →
    2 ^ st.length * (e - pl + 1) ≤ N + 1 → Shallow N st →
    ∃ a' pl' e' cd' st', qsWhile cmp a pl e cd st = some (a', pl', e', cd', st') ∧ Frame lo hi a' a ∧
      Disj lo hi ((pl', e') :: segs st') ∧ Settled lt lo hi ((pl', e') :: segs st') a' ∧
      2 ^ st'.length * (e' - pl' + 1) ≤ N + 1 ∧ Shallow N st' ∧
      weight ((pl', e') :: segs st') = weight ((pl, e) :: segs st) := by
  induction m using Nat.strongRecOn with
  | _ m ih =>
  intro a pl e cd st hm hlen hP hd hset hb hsh
  have hd' := hd
  obtain ⟨d1, d2, d3, d4, d5⟩ := hd'
  dsimp only at d1 d2 d3 d4
  rw [qsWhile]
  by_cases hbig : e > pl + 31
  · rw [if_pos hbig]
    obtain ⟨a1, i, vp, r1, r2, r3, r4, r5, r6, r7⟩ := partition_ok hc hs (pl := pl) (pr := e - 1) (hP.mono (by omega) (by omega)) (by omega) (by omega)
    rw [show e - 1 + 1 = e by omega] at r4 r7
    have hset1 := Settled.split hs (hset.frame hd r4) r5 r6 r7
    have hf1 : Frame lo hi a1 a := r4.mono d1 d3
    have hP1 := hf1.allIn hP
    simp only [r1, Option.bind_eq_bind, Option.bind_some]
    by_cases hcase : i - pl < e - 1 - i
    · rw [if_pos hcase]
      simp only [push_ok hN (c := e - pl) (by omega) hb, Option.bind_some]
      obtain ⟨a', pl', e', cd', st', q1, q2, q3, q4, q5, q6, q7⟩ := ih (i - pl) (by omega) a1 pl i (cd - 1)
        ((i + 1, e, cd - 1) :: st) rfl (by rw [r4.len]; exact hlen) hP1
        (by
          refine ⟨d1, by dsimp only; omega, by dsimp only; omega, ?_, by dsimp only; omega, by dsimp only; omega, d3, ?_, d5⟩
          · intro t ht
            rcases List.mem_cons.1 ht with rfl | ht
            · left; dsimp only; omega
            · rcases d4 t ht with h | h
              · left; dsimp only; omega
              · right; exact h
          · intro t ht
            rcases d4 t ht with h | h
            · left; exact h
            · right; dsimp only; omega)
        hset1 (half_bound hb (by omega)) ⟨part_bound hb (by dsimp only; omega), hsh⟩
      refine ⟨a', pl', e', cd', st', q1, q2.trans hf1, q3, q4, q5, q6, ?_⟩
      rw [q7]
      simp only [segs, List.map_cons, weight]
      omega
    · rw [if_neg hcase]
      simp only [push_ok hN (c := e - pl) (by omega) hb, Option.bind_some]
      obtain ⟨a', pl', e', cd', st', q1, q2, q3, q4, q5, q6, q7⟩ := ih (e - (i + 1)) (by omega) a1 (i + 1) e (cd - 1)
        ((pl, i, cd - 1) :: st) rfl (by rw [r4.len]; exact hlen) hP1
        (by
          refine ⟨by dsimp only; omega, by dsimp only; omega, d3, ?_, by dsimp only; omega, by dsimp only; omega,
            by dsimp only; omega, ?_, d5⟩
          · intro t ht
            rcases List.mem_cons.1 ht with rfl | ht
            · right; dsimp only; omega
            · rcases d4 t ht with h | h
              · left; exact h
              · right; dsimp only; omega
          · intro t ht
            rcases d4 t ht with h | h
            · left; dsimp only; omega
            · right; exact h)
        (hset1.perm (by
          intro s h
          rcases List.mem_cons.1 h with rfl | h
          · simp [segs]
          · rcases List.mem_cons.1 h with rfl | h
            · simp
            · unfold segs at h ⊢; simp only [List.map_cons, List.mem_cons]; exact Or.inr (Or.inr h)))
        (half_bound hb (by omega)) ⟨part_bound hb (by dsimp only; omega), hsh⟩
      refine ⟨a', pl', e', cd', st', q1, q2.trans hf1, q3, q4, q5, q6, ?_⟩
      rw [q7]
      simp only [segs, List.map_cons, weight]
      omega
  · rw [if_neg hbig]
    exact ⟨a, pl, e, cd, st, rfl, Frame.refl _ _ _, hd, hset, hb, hsh, rfl⟩

/-- Insertion sort of a window. -/
theorem insertion_frame (hc : Computes cmp lt P) (hs : SWO lt) {a : List α} {pl e : Nat} (hP : AllIn P pl e a)
    (h1 : pl ≤ e) (h2 : e ≤ a.length) :
    ∃ a', insertLoop cmp pl e a (pl + 1) = some a' ∧ Frame pl e a' a ∧ AscAt lt pl e a' := by
  obtain ⟨A, S, B, rfl, hA, hS⟩ := window a h1 h2
  obtain ⟨S', h3, h4⟩ := insertion_ok hc hs A S B (fun x hx => by
    obtain ⟨k, hk, hk2⟩ := List.getElem_of_mem hx
    refine hP (pl + k) x (by omega) (by omega) ?_
    rw [List.append_assoc, List.getElem?_append_right (by omega), List.getElem?_append_left (by omega),
      show pl + k - A.length = k by omega, List.getElem?_eq_getElem hk, hk2]) (pl := pl) (pr := e) (by omega) (by omega)
  refine ⟨_, h4, ?_, ?_⟩
  · have := frame_of_list (A := A) (B := B) h3.perm
    rw [hA, show pl + S.length = e by omega] at this
    exact this
  · have := AscAt.of_list (A := A) (B := B) h3.asc
    rw [hA, h3.perm.length_eq, show pl + S.length = e by omega] at this
    exact this

theorem qsMain_ok (hc : Computes cmp lt P) (hs : SWO lt) {lo hi N : Nat} (hN : N < 2 ^ 63) (m : Nat) :
    ∀ (a : List α) (pl e : Nat) (cd : Int) (st : QStack), weight ((pl, e) :: segs st) = m → hi ≤ a.length →
    AllIn P lo hi a → Disj lo hi ((pl, e) :: segs st) → Settled lt lo hi ((pl, e) :: segs st) a →
    2 ^ st.length * (e - pl + 1) ≤ N + 1 → Shallow N st →
    ∃ a', qsMain cmp a pl e cd st = some a' ∧ Frame lo hi a' a ∧ AscAt lt lo hi a' := by
  induction m using Nat.strongRecOn with
  | _ m ih =>
  intro a pl e cd st hm hlen hP hd hset hb hsh
  -- one round
  have round : ∃ a1 st1, qsRound cmp a pl e cd st = some (a1, st1) ∧ Frame lo hi a1 a ∧ Disj lo hi (segs st1) ∧
      Settled lt lo hi (segs st1) a1 ∧ Shallow N st1 ∧ weight (segs st1) < weight ((pl, e) :: segs st) := by
    unfold qsRound
    by_cases hcd : cd ≥ 0
    · rw [if_pos hcd]
      obtain ⟨a1, pl1, e1, cd1, st1, q1, q2, q3, q4, q5, q6, q7⟩ :=
        qsWhile_ok hc hs hN _ a pl e cd st rfl hlen hP hd hset hb hsh
      have hP1 := q2.allIn hP
      obtain ⟨d1, d2, d3, d4, d5⟩ := q3
      dsimp only at d1 d2 d3 d4
      obtain ⟨a2, s1, s2, s3⟩ := insertion_frame hc hs (pl := pl1) (e := e1) (hP1.mono d1 d3) d2 (by rw [q2.len]; omega)
      refine ⟨a2, st1, ?_, (s2.mono d1 d3).trans q2, d5, ?_, q6, ?_⟩
      · simp only [q1, Option.bind_eq_bind, Option.bind_some, s1]
      · exact (q4.frame ⟨d1, d2, d3, d4, d5⟩ s2).done s3
      · rw [← q7]; simp only [weight]; omega
    · rw [if_neg hcd]
      have hd' := hd
      obtain ⟨d1, d2, d3, d4, d5⟩ := hd'
      dsimp only at d1 d2 d3 d4
      obtain ⟨a2, s1, s2, s3⟩ := heapsort_ok hc hs (base := pl) (n := e - pl) a (by omega) (hP.mono (by omega) (by omega))
      rw [show pl + (e - pl) = e by omega] at s2 s3
      refine ⟨a2, st, ?_, s2.mono d1 d3, d5, ?_, hsh, ?_⟩
      · simp only [Option.bind_eq_bind, Option.bind_some, s1]
      · exact (hset.frame hd s2).done s3
      · simp only [weight]; omega
  obtain ⟨a1, st1, r1, r2, r3, r4, r5, r6⟩ := round
  rw [qsMain]
  simp only [r1, Option.bind_eq_bind, Option.bind_some]
  cases st1 with
  | nil =>
    refine ⟨a1, by simp, r2, ?_⟩
    intro p q x y h1 h2 h3 hx hy
    rcases r4 p q x y h1 h2 h3 hx hy with ⟨t, ht, _⟩ | h
    · simp [segs] at ht
    · exact h
  | cons t st1 =>
    obtain ⟨a2, s1, s2, s3⟩ := ih (weight (segs (t :: st1))) (by omega) a1 t.1 t.2.1 t.2.2 st1 rfl
      (by rw [r2.len]; exact hlen) (r2.allIn hP) r3 r4 r5.1 r5.2
    exact ⟨a2, by simpa using s1, s2.trans r2, s3⟩

/-- quicksort_ / aquicksort_ (arrays of fewer than 2^63 elements). -/
theorem quicksort_ok (hc : Computes cmp lt P) (hs : SWO lt) {start n : Nat} (hn : n < 2 ^ 63) (a : List α)
    (hlen : start + n ≤ a.length) (hP : AllIn P start (start + n) a) :
    ∃ a', quicksort cmp a start n = some a' ∧ Frame start (start + n) a' a ∧ AscAt lt start (start + n) a' := by
  unfold quicksort
  refine qsMain_ok hc hs (lo := start) (hi := start + n) (N := n) hn _ a start (start + n) _ [] rfl hlen hP ?_ ?_ ?_ trivial
  · exact ⟨by dsimp only; omega, by dsimp only; omega, by dsimp only; omega, by simp [segs], trivial⟩
  · intro p q x y h1 h2 h3 _ _
    exact Or.inl ⟨(start, start + n), by simp, h1, h3⟩
  · simp

end Pnumpy.Sort
