import Verif.Model.GetItem
import Verif.Proofs.Chunks
/- Lemmas on getitem. -/
namespace Pnumpy.GetItem
open Pnumpy.Chunks

variable {β : Type}

/-- Number of true mask bytes in `[a, a+l)`. -/
def cnt (m : Nat → BitVec 8) (a l : Nat) : Nat := (List.range' a l).countP (fun i => m i ≠ 0)

/-- Items at the true places of `[a, a+l)`. -/
def sel (m : Nat → BitVec 8) (v : Nat → List β) (a l : Nat) : List (List β) := ((List.range' a l).filter (fun i => m i ≠ 0)).map v

theorem cnt_add (m : Nat → BitVec 8) (a l k : Nat) : cnt m a (l + k) = cnt m a l + cnt m (a + l) k := by
  unfold cnt
  rw [← List.range'_append_1, List.countP_append]

theorem sel_add (m : Nat → BitVec 8) (v : Nat → List β) (a l k : Nat) : sel m v a (l + k) = sel m v a l ++ sel m v (a + l) k := by
  unfold sel
  rw [← List.range'_append_1, List.filter_append, List.map_append]

theorem sel_length (m : Nat → BitVec 8) (v : Nat → List β) (a l : Nat) : (sel m v a l).length = cnt m a l := by
  unfold sel cnt; rw [List.length_map, List.countP_eq_length_filter]

theorem cnt_one (m : Nat → BitVec 8) (a : Nat) : cnt m a 1 = if m a = 0 then 0 else 1 := by
  unfold cnt; by_cases h : m a = 0 <;> simp [h]

theorem sel_one (m : Nat → BitVec 8) (v : Nat → List β) (a : Nat) : sel m v a 1 = if m a = 0 then [] else [v a] := by
  unfold sel; simp [List.filter_cons]; split <;> rfl

theorem cnt_zero (m : Nat → BitVec 8) (a : Nat) : cnt m a 0 = 0 := rfl
theorem sel_zero (m : Nat → BitVec 8) (v : Nat → List β) (a : Nat) : sel m v a 0 = [] := rfl

section
variable {m : Nat → BitVec 8} {rdM : Int → Option (BitVec 8)} {n : Nat} {sb : Int}

theorem sumLoop_ok (hM : ∀ i : Nat, i < n → rdM (i * sb) = some (m i)) : ∀ l a : Nat, a + l ≤ n →
    sumLoop rdM sb l (a * sb) = some (cnt m a l) := by
  intro l
  induction l with
  | zero => intro a _; rfl
  | succ l ih =>
    intro a h
    rw [sumLoop, hM a (by omega)]
    have e : (a : Int) * sb + sb = ((a + 1 : Nat) : Int) * sb := by push_cast; ring
    rw [e, Option.bind_eq_bind, Option.bind_some, ih (a + 1) (by omega), Option.bind_eq_bind, Option.bind_some, Nat.add_comm l 1, cnt_add, cnt_one]

theorem minEpu8_one (b : BitVec 8) : minEpu8 1 b = if b = 0 then 0 else 1 := by
  unfold minEpu8
  have h1 : (1 : BitVec 8).toNat = 1 := rfl
  rw [h1]
  by_cases h : b = 0
  · subst h; rfl
  · rw [if_neg h, if_neg]
    intro h2
    exact h (BitVec.eq_of_toNat_eq (by simpa using (show b.toNat = 0 by omega)))

theorem toNat_interleave_zero {w : Nat} : ∀ (a : List (BitVec w)) (n : Nat), a.length = n →
    (interleave a (List.replicate n 0)).map (·.toNat) = a.map (·.toNat) := by
  intro a
  induction a with
  | nil => intro n h; subst h; rfl
  | cons x a ih =>
    intro n h
    obtain ⟨n, rfl⟩ : ∃ k, n = k + 1 := ⟨a.length, by simp at h; omega⟩
    have h' : a.length = n := by simpa using h
    have := ih n h'
    simp only [interleave] at this ⊢
    rw [List.replicate_succ, List.zipWith_cons_cons, List.map_cons, List.map_cons, this]
    congr 1
    simp [BitVec.toNat_append]

theorem interleave_zero_length {w : Nat} (a : List (BitVec w)) (n : Nat) (h : a.length = n) :
    (interleave a (List.replicate n (0 : BitVec w))).length = n := by
  simp [interleave, h]

theorem sum_zipWith_add {w : Nat} : ∀ (a b : List (BitVec w)), a.length = b.length →
    (∀ x ∈ a.map (·.toNat), ∀ y ∈ b.map (·.toNat), x + y < 2 ^ w) →
    ((List.zipWith (· + ·) a b).map (·.toNat)).sum = (a.map (·.toNat)).sum + (b.map (·.toNat)).sum := by
  intro a
  induction a with
  | nil => intro b h _; cases b with
    | nil => rfl
    | cons => simp at h
  | cons x a ih =>
    intro b h hb
    cases b with
    | nil => simp at h
    | cons y b =>
      have h1 : a.length = b.length := by simpa using h
      have h2 := ih b h1 fun u hu v hv => hb u (List.mem_cons_of_mem _ hu) v (List.mem_cons_of_mem _ hv)
      have h3 : x.toNat + y.toNat < 2 ^ w := hb x.toNat (by simp) y.toNat (by simp)
      simp only [List.zipWith_cons_cons, List.map_cons, List.sum_cons, h2, BitVec.toNat_add, Nat.mod_eq_of_lt h3]
      omega

theorem widen_length {w q : Nat} (l : List (BitVec w)) (h : l.length = 4 * q) : (widen l).length = 2 * q := by
  simp only [widen, List.length_zipWith, interleave, loLanes, hiLanes, List.length_append, List.length_take, List.length_drop, List.length_replicate, h]
  omega

/-- Widening preserves the sum of the lanes: no lane overflows. -/
theorem widen_sum {w q : Nat} (hw : 0 < w) (l : List (BitVec w)) (h : l.length = 4 * q) :
    ((widen l).map (·.toNat)).sum = (l.map (·.toNat)).sum := by
  have z : ∀ k, loLanes (List.replicate (4 * k) (0 : BitVec w)) = List.replicate (2 * k) 0 ∧ hiLanes (List.replicate (4 * k) (0 : BitVec w)) = List.replicate (2 * k) 0 := by
    intro k
    simp only [loLanes, hiLanes, List.length_replicate, List.take_replicate, List.drop_replicate, List.replicate_append_replicate]
    constructor <;> congr 1 <;> omega
  have hlo : (loLanes l).length = 2 * q := by simp [loLanes, h]; omega
  have hhi : (hiLanes l).length = 2 * q := by simp [hiLanes, h]; omega
  have hp : 2 ^ w + 2 ^ w ≤ 2 ^ (w + w) := by
    have : 2 ≤ 2 ^ w := by
      calc 2 = 2 ^ 1 := rfl
        _ ≤ 2 ^ w := Nat.pow_le_pow_right (by omega) hw
    rw [Nat.pow_add]
    calc 2 ^ w + 2 ^ w = 2 ^ w * 2 := by omega
      _ ≤ 2 ^ w * 2 ^ w := Nat.mul_le_mul_left _ this
  unfold widen
  simp only
  rw [h, (z q).1, (z q).2, sum_zipWith_add, toNat_interleave_zero _ _ hlo, toNat_interleave_zero _ _ hhi]
  · have e : (l.map (·.toNat)).sum = ((loLanes l).map (·.toNat)).sum + ((hiLanes l).map (·.toNat)).sum := by
      have s1 : l = ((l.take (l.length / 2)).take (l.length / 4) ++ (l.take (l.length / 2)).drop (l.length / 4)) ++
          ((l.drop (l.length / 2)).take (l.length / 4) ++ (l.drop (l.length / 2)).drop (l.length / 4)) := by
        rw [List.take_append_drop, List.take_append_drop, List.take_append_drop]
      conv => lhs; rw [s1]
      simp only [loLanes, hiLanes, List.map_append, List.sum_append]
      omega
    omega
  · rw [interleave_zero_length _ _ hlo, interleave_zero_length _ _ hhi]
  · rw [toNat_interleave_zero _ _ hlo, toNat_interleave_zero _ _ hhi]
    intro x hx y hy
    obtain ⟨u, _, rfl⟩ := List.mem_map.1 hx
    obtain ⟨v, _, rfl⟩ := List.mem_map.1 hy
    have := u.isLt; have := v.isLt
    omega

theorem horizontal_sum (cs : List (BitVec 8)) (h : cs.length = 32) : horizontal cs = (cs.map (·.toNat)).sum := by
  have h1 : (widen cs).length = 4 * 4 := by rw [widen_length (q := 8) cs (by omega)]
  have h2 : (widen (widen cs)).length = 4 * 2 := by rw [widen_length (q := 4) _ h1]
  unfold horizontal
  rw [widen_sum (q := 2) (by omega) _ h2, widen_sum (q := 4) (by omega) _ h1, widen_sum (q := 8) (by omega) _ (by omega)]

theorem laneCount_ok (hM : ∀ i : Nat, i < n → rdM i = some (m i)) (a lane : Nat) (hl : lane < 32) : ∀ it : Nat, a + 32 * it ≤ n → it ≤ 255 →
    ∃ c, laneCount rdM a lane it = some c ∧ c.toNat ≤ it ∧ c.toNat = ((List.range it).map fun k => cnt m (a + 32 * k + lane) 1).sum := by
  intro it
  induction it with
  | zero => intro _ _; exact ⟨0, rfl, by simp, by simp⟩
  | succ it ih =>
    intro h1 h2
    obtain ⟨c, h3, h4, h5⟩ := ih (by omega) (by omega)
    have e : (a : Int) + 32 * (it : Int) + (lane : Int) = ((a + 32 * it + lane : Nat) : Int) := by push_cast; ring
    have hn' : a + 32 * it + lane < n := by omega
    refine ⟨c + (if m (a + 32 * it + lane) = 0 then 0 else 1), ?_, ?_, ?_⟩
    · rw [laneCount, h3, e, Option.bind_eq_bind, Option.bind_some, hM _ hn', Option.bind_some, minEpu8_one]
    · split
      · simp; omega
      · rw [BitVec.toNat_add]; simp; omega
    · rw [List.range_succ, List.map_append, List.sum_append, ← h5]
      simp only [List.map_cons, List.map_nil, List.sum_cons, List.sum_nil, cnt_one]
      split
      · simp
      · rw [BitVec.toNat_add]; simp; omega

theorem laneCounts_ok (hM : ∀ i : Nat, i < n → rdM i = some (m i)) (a it : Nat) (h1 : a + 32 * it ≤ n) (h2 : it ≤ 255) : ∀ lanes, lanes ≤ 32 →
    ∃ cs, laneCounts rdM a it lanes = some cs ∧ cs.length = lanes ∧
      (cs.map (·.toNat)).sum = ((List.range it).map fun k => cnt m (a + 32 * k) lanes).sum := by
  intro lanes
  induction lanes with
  | zero =>
    intro _
    exact ⟨[], rfl, rfl, by simp [cnt_zero]⟩
  | succ l ih =>
    intro hl
    obtain ⟨c, h3, _, h4⟩ := laneCount_ok (rdM := rdM) hM a l (by omega) it h1 h2
    obtain ⟨cs, h5, h6, h7⟩ := ih (by omega)
    refine ⟨cs ++ [c], by rw [laneCounts, h5, Option.bind_eq_bind, Option.bind_some, h3, Option.bind_eq_bind, Option.bind_some], by simp [h6], ?_⟩
    rw [List.map_append, List.sum_append, h7, List.map_singleton, List.sum_singleton, h4]
    have : ∀ k, cnt m (a + 32 * k) (l + 1) = cnt m (a + 32 * k) l + cnt m (a + 32 * k + l) 1 := fun k => cnt_add _ _ _ _
    simp only [this]
    generalize List.range it = L
    induction L with
    | nil => rfl
    | cons x L ih => simp only [List.map_cons, List.sum_cons]; omega

theorem sum_blocks (a it : Nat) : ((List.range it).map fun k => cnt m (a + 32 * k) 32).sum = cnt m a (32 * it) := by
  induction it with
  | zero => rfl
  | succ it ih =>
    rw [List.range_succ, List.map_append, List.sum_append, ih, Nat.mul_succ, cnt_add]
    simp

theorem sumVectors_ok (hM : ∀ i : Nat, i < n → rdM i = some (m i)) (v : Nat) : ∀ a : Nat, a + 32 * v ≤ n → sumVectors rdM a v = some (cnt m a (32 * v)) := by
  induction v using Nat.strongRecOn with
  | _ v ih =>
    intro a h
    rw [sumVectors]
    split
    · next h0 => subst h0; rfl
    · next h0 =>
      have e : (a : Int) + 32 * ((min v 255 : Nat) : Int) = ((a + 32 * min v 255 : Nat) : Int) := by push_cast; ring
      simp only
      obtain ⟨cs, hc, hl, hs⟩ := laneCounts_ok (rdM := rdM) hM a (min v 255) (by omega) (by omega) 32 (by omega)
      rw [hc, Option.bind_eq_bind, Option.bind_some, horizontal_sum _ hl, hs, sum_blocks, e,
        ih (v - min v 255) (by omega) _ (by omega), Option.bind_eq_bind, Option.bind_some, ← cnt_add]
      congr 2; omega

theorem sumBooleanMask_ok (hM : ∀ i : Nat, i < n → rdM (i * sb) = some (m i)) {a l : Nat} (h : a + l ≤ n) :
    sumBooleanMask rdM (a * sb) l sb = some (cnt m a l) := by
  unfold sumBooleanMask
  split
  · next h1 =>
    subst h1
    simp only [mul_one] at hM ⊢
    have e : (a : Int) + 32 * ((l / 32 : Nat) : Int) = ((a + 32 * (l / 32) : Nat) : Int) * 1 := by push_cast; ring
    rw [sumVectors_ok hM (l / 32) a (by omega), Option.bind_eq_bind, Option.bind_some, e,
      sumLoop_ok (sb := 1) (by simpa using hM) _ _ (by omega), Option.bind_some, ← cnt_add]
    congr 2; omega
  · exact sumLoop_ok hM l a h

theorem countCalls_ok (hM : ∀ i : Nat, i < n → rdM (i * sb) = some (m i)) : ∀ (cs : List (Nat × Nat)) (c : List Nat),
    (∀ p ∈ cs, p.1 / 16384 < c.length ∧ p.1 + p.2 ≤ n) →
    (∀ p ∈ cs, ∀ q ∈ cs, p.1 / 16384 = q.1 / 16384 → p = q) →
    ∃ c', countCalls rdM sb cs c = some c' ∧ c'.length = c.length ∧ (∀ p ∈ cs, c'[p.1 / 16384]? = some (cnt m p.1 p.2)) ∧
      ∀ j, (∀ p ∈ cs, p.1 / 16384 ≠ j) → c'[j]? = c[j]? := by
  intro cs
  induction cs with
  | nil => intro c _ _; exact ⟨c, rfl, rfl, by simp, fun _ _ => rfl⟩
  | cons p cs ih =>
    obtain ⟨s, l⟩ := p
    intro c h1 h2
    obtain ⟨g1, g2⟩ := h1 (s, l) (by simp)
    obtain ⟨c', e1, e2, e3, e4⟩ := ih (c.set (s / 16384) (cnt m s l)) (fun p hp => by simpa using h1 p (by simp [hp]))
      (fun p hp q hq => h2 p (by simp [hp]) q (by simp [hq]))
    refine ⟨c', ?_, by simpa using e2, ?_, ?_⟩
    · rw [countCalls, sumBooleanMask_ok hM g2, Option.bind_eq_bind, Option.bind_some, Pnumpy.Sort.put, if_pos g1, Option.bind_eq_bind, Option.bind_some, e1]
    · intro p hp
      rcases List.mem_cons.1 hp with rfl | hp
      · by_cases hin : ∃ q ∈ cs, q.1 / 16384 = s / 16384
        · obtain ⟨q, hq, hqs⟩ := hin
          have := h2 q (by simp [hq]) (s, l) (by simp) hqs
          subst this
          exact e3 _ hq
        · have := e4 (s / 16384) (fun q hq h => hin ⟨q, hq, h⟩)
          show c'[s / 16384]? = _
          rw [this, List.getElem?_set_self g1]
      · exact e3 p hp
    · intro j hj
      rw [e4 j (fun q hq => hj q (by simp [hq])), List.getElem?_set_ne (hj (s, l) (by simp))]

theorem cumulate_ok : ∀ (k : Nat) (c : List Nat) (t : Nat), k ≤ c.length →
    (cumulate k c t).1.length = c.length ∧ (cumulate k c t).2 = t + (c.take k).sum ∧
    (∀ j, j < k → (cumulate k c t).1[j]? = some (t + (c.take j).sum)) ∧ ∀ j, k ≤ j → (cumulate k c t).1[j]? = c[j]? := by
  intro k
  induction k with
  | zero => intro c t _; simp [cumulate]
  | succ k ih =>
    intro c t h
    cases c with
    | nil => simp at h
    | cons x c =>
      obtain ⟨h1, h2, h3, h4⟩ := ih c (t + x) (by simpa using h)
      simp only [cumulate]
      refine ⟨by simp [h1], by simp [h2]; omega, ?_, ?_⟩
      · intro j hj
        cases j with
        | zero => simp
        | succ j => simp [h3 j (by omega)]; omega
      · intro j hj
        cases j with
        | zero => omega
        | succ j => simp [h4 j (by omega)]

theorem mem_blocks {n : Nat} {p : Nat × Nat} (h : p ∈ blocks n) : ∃ b, b < (n + 16383) / 16384 ∧ p = (16384 * b, min 16384 (n - 16384 * b)) := by
  obtain ⟨b, hb, rfl⟩ := List.mem_map.1 h
  exact ⟨b, List.mem_range.1 hb, rfl⟩

/-- The offsets after the counting pass. -/
theorem boolOffsets_ok (hM : ∀ i : Nat, i < n → rdM (i * sb) = some (m i)) {t1 : Bool} {calls : List (Nat × Nat)} (hc : Calls n t1 calls)
    {raw : List Nat} (hr : raw.length = (max n 1 + 16383) / 16384) :
    ∃ offs, boolOffsets rdM sb t1 calls raw = some (offs, cnt m 0 n) ∧ offs[0]? = some 0 ∧
      (t1 = true → ∀ b, b < (n + 16383) / 16384 → offs[b]? = some (cnt m 0 (16384 * b))) ∧
      (t1 = false → ∀ b, 1 ≤ b → offs[b]? = raw[b]?) := by
  have hr1 : 1 ≤ raw.length := by omega
  cases t1 with
  | false =>
    rw [calls_serial hc]
    obtain ⟨c', e1, e2, e3, e4⟩ := countCalls_ok hM [(0, n)] raw (by simp; omega) (by simp)
    obtain ⟨f1, f2, f3, f4⟩ := cumulate_ok 1 c' 0 (by omega)
    have h0 := e3 (0, n) (by simp)
    simp only [Nat.zero_div] at h0
    have hs : (c'.take 1).sum = cnt m 0 n := by
      cases c' with
      | nil => simp at h0
      | cons x c' => simpa using h0
    refine ⟨(cumulate 1 c' 0).1, ?_, by simpa using f3 0 (by omega), (by simp), fun _ b hb => ?_⟩
    · unfold boolOffsets
      rw [e1, Option.bind_eq_bind, Option.bind_some]
      congr 1
      apply Prod.ext
      · rfl
      · show (cumulate 1 c' 0).2 = _
        rw [f2, hs]; omega
    · rw [f4 b hb]
      exact e4 b (by simp; omega)
  | true =>
    obtain ⟨hn, hp⟩ := calls_threaded hc
    have hr' : raw.length = (n + 16383) / 16384 := by rw [hr]; congr 2; omega
    obtain ⟨c', e1, e2, e3, e4⟩ := countCalls_ok hM calls raw
      (fun p hp' => by
        obtain ⟨b, hb, rfl⟩ := mem_blocks (hp.mem_iff.1 hp')
        simp only; omega)
      (fun p hp1 q hq1 h => by
        obtain ⟨b, hb, rfl⟩ := mem_blocks (hp.mem_iff.1 hp1)
        obtain ⟨b', hb', rfl⟩ := mem_blocks (hp.mem_iff.1 hq1)
        simp only at h
        obtain rfl : b = b' := by omega
        rfl)
    have hget : ∀ b, b < (n + 16383) / 16384 → c'[b]? = some (cnt m (16384 * b) (min 16384 (n - 16384 * b))) := by
      intro b hb
      have := e3 (16384 * b, min 16384 (n - 16384 * b)) (hp.mem_iff.2 (List.mem_map.2 ⟨b, List.mem_range.2 hb, rfl⟩))
      simpa using this
    have hsum : ∀ b, b ≤ (n + 16383) / 16384 → (c'.take b).sum = cnt m 0 (min n (16384 * b)) := by
      intro b
      induction b with
      | zero => intro _; simp [cnt_zero]
      | succ b ih =>
        intro hb
        have hlt : b < c'.length := by omega
        have hg := hget b (by omega)
        rw [List.getElem?_eq_getElem hlt] at hg
        rw [← List.take_append_getElem hlt, List.sum_append, ih (by omega)]
        simp only [List.sum_cons, List.sum_nil, Option.some.inj hg]
        have e1 : min n (16384 * b) = 16384 * b := by omega
        have e2 : min n (16384 * (b + 1)) = 16384 * b + min 16384 (n - 16384 * b) := by omega
        rw [e1, e2, cnt_add]; simp
    obtain ⟨f1, f2, f3, f4⟩ := cumulate_ok c'.length c' 0 (by omega)
    have hoff : ∀ b, b < (n + 16383) / 16384 → (cumulate c'.length c' 0).1[b]? = some (cnt m 0 (16384 * b)) := by
      intro b hb
      rw [f3 b (by omega), hsum b (by omega)]
      congr 1
      have : min n (16384 * b) = 16384 * b := by omega
      rw [this]; omega
    refine ⟨(cumulate c'.length c' 0).1, ?_, ?_, fun _ => hoff, (by simp)⟩
    · unfold boolOffsets
      rw [e1, Option.bind_eq_bind, Option.bind_some]
      congr 1
      apply Prod.ext
      · rfl
      · show (cumulate c'.length c' 0).2 = _
        rw [f2, hsum _ (by omega), e2, hr']
        have : min n (16384 * ((n + 16383) / 16384)) = n := by omega
        rw [this]; omega
    · have := hoff 0 (by omega)
      simpa [cnt_zero] using this

end

section
variable {m : Nat → BitVec 8} {v : Nat → List β} {rdM : Int → Option (BitVec 8)} {rdV : Int → Option (List β)} {n : Nat} {sb sv : Int}

theorem maskBytes_ok (hM : ∀ i : Nat, i < n → rdM (i * sb) = some (m i)) : ∀ l a : Nat, a + l ≤ n →
    maskBytes rdM sb l (a * sb) = some ((List.range' a l).map m) := by
  intro l
  induction l with
  | zero => intro a _; rfl
  | succ l ih =>
    intro a h
    have e : (a : Int) * sb + sb = ((a + 1 : Nat) : Int) * sb := by push_cast; ring
    rw [maskBytes, hM a (by omega), Option.bind_eq_bind, Option.bind_some, e, ih (a + 1) (by omega), Option.bind_eq_bind, Option.bind_some,
      List.range'_succ, List.map_cons]

theorem itemWrites_cons (isz o : Nat) (x : List β) (l : List (List β)) :
    itemWrites isz ((x :: l).zipIdx o) = ((o : Int) * isz, x) :: itemWrites isz (l.zipIdx (o + 1)) := by
  simp [itemWrites, List.zipIdx_cons]

theorem itemWrites_append (isz o : Nat) (l1 l2 : List (List β)) :
    itemWrites isz ((l1 ++ l2).zipIdx o) = itemWrites isz (l1.zipIdx o) ++ itemWrites isz (l2.zipIdx (o + l1.length)) := by
  simp [itemWrites, List.zipIdx_append]

theorem pick_ok {isz : Nat} (hV : ∀ i : Nat, i < n → rdV (i * sv) = some (v i)) : ∀ (l a o : Nat), a + l ≤ n →
    pick rdV sv isz ((List.range' a l).map m) (a * sv) (o * isz) =
      some (itemWrites isz ((sel m v a l).zipIdx o), ((a + l : Nat) : Int) * sv, ((o + cnt m a l : Nat) : Int) * isz) := by
  intro l
  induction l with
  | zero => intro a o _; simp [pick, sel_zero, cnt_zero, itemWrites]
  | succ l ih =>
    intro a o h
    have e : (a : Int) * sv + sv = ((a + 1 : Nat) : Int) * sv := by push_cast; ring
    have e2 : (o : Int) * isz + isz = ((o + 1 : Nat) : Int) * isz := by push_cast; ring
    rw [List.range'_succ, List.map_cons, pick, Nat.add_comm l 1, sel_add, cnt_add, sel_one, cnt_one, e, e2]
    by_cases h0 : m a = 0
    · rw [if_pos h0, ih (a + 1) o (by omega)]
      simp only [h0, if_true, List.nil_append, Nat.zero_add]
      rw [show a + (1 + l) = a + 1 + l by omega]
    · rw [if_neg h0, hV a (by omega), ih (a + 1) (o + 1) (by omega)]
      simp only [h0, if_false, Option.bind_eq_bind, Option.bind_some]
      rw [show a + (1 + l) = a + 1 + l by omega, show o + 1 + cnt m (a + 1) l = o + (1 + cnt m (a + 1) l) by omega,
        List.singleton_append, itemWrites_cons]

theorem sel_none {a l : Nat} (h : ∀ i, a ≤ i → i < a + l → m i = 0) : sel m v a l = [] ∧ cnt m a l = 0 := by
  have : (List.range' a l).filter (fun i => m i ≠ 0) = [] := by
    rw [List.filter_eq_nil_iff]
    intro i hi
    simp only [List.mem_range'_1] at hi
    simp [h i hi.1 hi.2]
  have h1 : sel m v a l = [] := by unfold sel; rw [this]; rfl
  exact ⟨h1, by rw [← sel_length m v, h1]; rfl⟩

theorem pick8_ok {isz : Nat} (hM : ∀ i : Nat, i < n → rdM i = some (m i)) (hV : ∀ i : Nat, i < n → rdV (i * sv) = some (v i)) :
    ∀ (g a o : Nat), a + 8 * g ≤ n →
    pick8 rdM rdV sv isz g a (a * sv) (o * isz) =
      some (itemWrites isz ((sel m v a (8 * g)).zipIdx o), ((a + 8 * g : Nat) : Int), ((a + 8 * g : Nat) : Int) * sv,
        ((o + cnt m a (8 * g) : Nat) : Int) * isz) := by
  intro g
  induction g with
  | zero => intro a o _; simp [pick8, sel_zero, cnt_zero, itemWrites]
  | succ g ih =>
    intro a o h
    have hb := maskBytes_ok (sb := 1) (rdM := rdM) (m := m) (n := n) (by simpa using hM) 8 a (by omega)
    rw [mul_one] at hb
    have e1 : (a : Int) + 8 = ((a + 8 : Nat) : Int) := by push_cast; ring
    have e2 : (a : Int) * sv + 8 * sv = ((a + 8 : Nat) : Int) * sv := by push_cast; ring
    rw [pick8, hb, Option.bind_eq_bind, Option.bind_some, show 8 * (g + 1) = 8 + 8 * g by omega, sel_add, cnt_add, e1]
    split
    · next hz =>
      have hz' : ∀ i, a ≤ i → i < a + 8 → m i = 0 := by
        intro i h1 h2
        have := List.all_eq_true.1 hz (m i) (List.mem_map.2 ⟨i, by simp [List.mem_range'_1]; omega, rfl⟩)
        simpa using this
      obtain ⟨s1, s2⟩ := sel_none (v := v) hz'
      rw [e2, ih (a + 8) o (by omega), s1, s2]
      simp only [List.nil_append, Nat.zero_add]
      rw [show a + (8 + 8 * g) = a + 8 + 8 * g by omega]
    · rw [pick_ok hV 8 a o (by omega), Option.bind_eq_bind, Option.bind_some]
      simp only
      rw [ih (a + 8) (o + cnt m a 8) (by omega), Option.bind_eq_bind, Option.bind_some]
      simp only
      rw [itemWrites_append, sel_length, show a + (8 + 8 * g) = a + 8 + 8 * g by omega,
        show o + (cnt m a 8 + cnt m (a + 8) (8 * g)) = o + cnt m a 8 + cnt m (a + 8) (8 * g) by omega]

theorem boolKernel_ok {isz : Nat} (hM : ∀ i : Nat, i < n → rdM (i * sb) = some (m i)) (hV : ∀ i : Nat, i < n → rdV (i * sv) = some (v i))
    (hsz : (isz = 1 ∨ isz = 2 ∨ isz = 4 ∨ isz = 8) ∨ sv = isz ∨ sb ≠ 1) {offs : List Nat} {a l : Nat} (h : a + l ≤ n)
    (ho : offs[a / 16384]? = some (cnt m 0 a)) :
    boolKernel rdM rdV sb sv isz offs (a, l) = some (itemWrites isz ((sel m v a l).zipIdx (cnt m 0 a))) := by
  unfold boolKernel
  simp only
  rw [ho, Option.bind_eq_bind, Option.bind_some]
  split
  · next h1 =>
    subst h1
    simp only [mul_one] at hM ⊢
    have hts : tailStep isz sv = isz := by
      unfold tailStep
      rcases hsz with h | h | h
      · rw [if_pos (by rcases h with h | h | h | h <;> subst h <;> simp)]
      · rw [h]; simp
      · exact absurd rfl h
    have hb := maskBytes_ok (sb := 1) (rdM := rdM) (m := m) (n := n) (by simpa using hM) (l % 8) (a + 8 * (l / 8)) (by omega)
    rw [mul_one] at hb
    rw [pick8_ok hM hV (l / 8) a (cnt m 0 a) (by omega), Option.bind_eq_bind, Option.bind_some]
    simp only
    rw [hb, Option.bind_eq_bind, Option.bind_some, hts, pick_ok hV (l % 8) (a + 8 * (l / 8)) _ (by omega), Option.bind_eq_bind, Option.bind_some]
    simp only
    have hl : l = 8 * (l / 8) + l % 8 := by omega
    conv_rhs => rw [hl]
    rw [sel_add, itemWrites_append, sel_length]
  · rw [maskBytes_ok hM l a h, Option.bind_eq_bind, Option.bind_some, pick_ok hV l a _ h, Option.bind_eq_bind, Option.bind_some]

end

/-! ### Integer indices -/

section
variable {rdI : Int → Option Int} {ix : Nat → Int} {k : Nat} {si : Int}

theorem itemLoop_ok {look : Int → Option (List β)} {item : Nat → List β} {isz : Nat} (hI : ∀ j : Nat, j < k → rdI (j * si) = some (ix j))
    (hl : ∀ j, j < k → look (ix j) = some (item j)) : ∀ l a o : Nat, a + l ≤ k →
    itemLoop look rdI si isz l (a * si) (o * isz) = some (itemWrites isz (((List.range' a l).map item).zipIdx o)) := by
  intro l
  induction l with
  | zero => intro a o _; rfl
  | succ l ih =>
    intro a o h
    have e : (a : Int) * si + si = ((a + 1 : Nat) : Int) * si := by push_cast; ring
    have e2 : (o : Int) * isz + isz = ((o + 1 : Nat) : Int) * isz := by push_cast; ring
    rw [itemLoop, hI a (by omega), e, e2, ih (a + 1) (o + 1) (by omega), List.range'_succ, List.map_cons, itemWrites_cons]
    simp only [Option.bind_eq_bind, Option.bind_some, hl a (by omega)]

theorem itemLoop_none {look : Int → Option (List β)} {isz : Nat} (hI : ∀ j : Nat, j < k → rdI (j * si) = some (ix j)) : ∀ l a : Nat, ∀ o : Int, a + l ≤ k →
    (∃ j, a ≤ j ∧ j < a + l ∧ look (ix j) = none) → itemLoop look rdI si isz l (a * si) o = none := by
  intro l
  induction l with
  | zero => intro a o _ ⟨j, _, _, _⟩; omega
  | succ l ih =>
    intro a o h ⟨j, h1, h2, h3⟩
    have e : (a : Int) * si + si = ((a + 1 : Nat) : Int) * si := by push_cast; ring
    rw [itemLoop, hI a (by omega), e]
    simp only [Option.bind_eq_bind, Option.bind_some]
    by_cases hj : j = a
    · subst hj; rw [h3]; rfl
    · cases look (ix a) with
      | none => rfl
      | some x =>
        rw [Option.bind_some, ih (a + 1) _ (by omega) ⟨j, by omega, by omega, h3⟩]; rfl

end

end Pnumpy.GetItem
