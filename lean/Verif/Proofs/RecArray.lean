import Verif.Model.RecArray
import Verif.Spec.RecArray
import Verif.Proofs.Chunks
/- Lemmas on the record array conversion. -/
namespace Pnumpy.RecArray
open Spec

variable {β : Type}

/-- `x` is what `T` has at offset `off`. -/
def Piece (T : List β) (off : Int) (x : List β) : Prop := ∃ pre post, T = pre ++ x ++ post ∧ (pre.length : Int) = off

theorem Piece.bounds {T : List β} {off : Int} {x : List β} (h : Piece T off x) : 0 ≤ off ∧ off + x.length ≤ T.length := by
  obtain ⟨pre, post, rfl, rfl⟩ := h
  simp only [List.length_append]; omega

theorem Piece.get {T : List β} {off : Int} {x : List β} (h : Piece T off x) {j : Nat} (h1 : off ≤ j) (h2 : (j : Int) < off + x.length) :
    x[j - off.toNat]? = T[j]? := by
  obtain ⟨pre, post, rfl, rfl⟩ := h
  have : pre.length ≤ j := by omega
  rw [Int.toNat_natCast, List.append_assoc, List.getElem?_append_right this, List.getElem?_append_left (by omega)]

theorem Piece.sub {T : List β} {off : Int} {u y v : List β} (h : Piece T off (u ++ y ++ v)) : Piece T (off + u.length) y := by
  obtain ⟨pre, post, rfl, rfl⟩ := h
  exact ⟨pre ++ u, v ++ post, by simp, by simp⟩

theorem write_get {out : List β} {off : Int} {x out' : List β} (h : Chunks.write out off x = some out') (j : Nat) :
    out'[j]? = if off ≤ j ∧ (j : Int) < off + x.length then x[j - off.toNat]? else out[j]? := by
  unfold Chunks.write at h
  split at h
  · next hc =>
    obtain rfl := Option.some.inj h
    obtain ⟨o, rfl⟩ : ∃ o : Nat, off = o := ⟨off.toNat, by omega⟩
    have hle : o + x.length ≤ out.length := by omega
    simp only [Int.toNat_natCast, List.append_assoc]
    by_cases h1 : j < o
    · rw [List.getElem?_append_left (by rw [List.length_take]; omega), List.getElem?_take, if_pos h1, if_neg (by omega)]
    · rw [List.getElem?_append_right (by rw [List.length_take]; omega), List.length_take, Nat.min_eq_left (by omega)]
      by_cases h2 : j < o + x.length
      · rw [List.getElem?_append_left (by omega), if_pos (by omega)]
      · rw [List.getElem?_append_right (by omega), List.getElem?_drop, if_neg (by omega)]
        congr 1; omega
  · cases h

/-- Byte `j` of output `i` is written. -/
def Covers (ws : List (Write β)) (i j : Nat) : Prop := ∃ off x, (i, off, x) ∈ ws ∧ off ≤ j ∧ (j : Int) < off + x.length

theorem runWrites_ok {T : Nat → List β} {k : Nat} : ∀ (ws : List (Write β)) (outs : List (List β)), outs.length = k →
    (∀ (i : Nat) (o : List β), outs[i]? = some o → o.length = (T i).length) → (∀ w ∈ ws, w.1 < k ∧ Piece (T w.1) w.2.1 w.2.2) →
    ∃ outs', runWrites outs ws = some outs' ∧ outs'.length = k ∧ (∀ (i : Nat) (o : List β), outs'[i]? = some o → o.length = (T i).length ∧
      ∀ j : Nat, Covers ws i j → o[j]? = (T i)[j]?) ∧
      ∀ (i : Nat) (o o' : List β) (j : Nat), outs[i]? = some o → outs'[i]? = some o' → o[j]? = (T i)[j]? → o'[j]? = (T i)[j]? := by
  intro ws
  induction ws with
  | nil =>
    intro outs h1 h2 _
    refine ⟨outs, rfl, h1, fun i o h => ⟨h2 i o h, ?_⟩, ?_⟩
    · rintro j ⟨off, x, hm, _⟩; simp at hm
    · intro i o o' j ho ho' h; rw [ho] at ho'; obtain rfl := Option.some.inj ho'; exact h
  | cons w ws ih =>
    obtain ⟨i, off, x⟩ := w
    intro outs h1 h2 h3
    obtain ⟨hi, hp⟩ := h3 (i, off, x) (by simp)
    simp only at hi hp
    have hget : outs[i]? = some outs[i] := List.getElem?_eq_getElem (by omega)
    have hlen := h2 i _ hget
    obtain ⟨out', hw⟩ : ∃ out', Chunks.write outs[i] off x = some out' := by
      unfold Chunks.write
      rw [if_pos (by rw [hlen]; exact hp.bounds)]
      exact ⟨_, rfl⟩
    have hwl := Chunks.write_length hw
    obtain ⟨outs', e1, e2, e3, e4⟩ := ih (outs.set i out') (by simpa using h1) (fun j o hj => by
      by_cases hji : i = j
      · subst hji
        rw [List.getElem?_set_self (by omega)] at hj
        obtain rfl := Option.some.inj hj
        omega
      · rw [List.getElem?_set_ne hji] at hj
        exact h2 j o hj) (fun w hw => h3 w (by simp [hw]))
    refine ⟨outs', ?_, e2, fun i' o ho => ⟨(e3 i' o ho).1, ?_⟩, ?_⟩
    · rw [runWrites, hget, Option.bind_eq_bind, Option.bind_some, hw, Option.bind_some, e1]
    · rintro j ⟨off', x', hm, hc1, hc2⟩
      rcases List.mem_cons.1 hm with h | h
      · obtain ⟨rfl, rfl, rfl⟩ := by simpa using h
        refine e4 i' out' o j (List.getElem?_set_self (by omega)) ho ?_
        rw [write_get hw, if_pos ⟨hc1, hc2⟩, hp.get hc1 hc2]
      · exact (e3 i' o ho).2 j ⟨off', x', h, hc1, hc2⟩
    · intro i' o o' j ho ho' h
      by_cases hii : i = i'
      · subst hii
        refine e4 i out' o' j (List.getElem?_set_self (by omega)) ho' ?_
        rw [hget] at ho
        obtain rfl := Option.some.inj ho
        rw [write_get hw]
        split
        · next hc => exact hp.get hc.1 hc.2
        · exact h
      · exact e4 i' o o' j (by rw [List.getElem?_set_ne hii]; exact ho) ho' h

/-- All bytes written, each as in `T`: the outputs are `T`, in whatever order. -/
theorem runWrites_covered {T : Nat → List β} {k : Nat} {ws : List (Write β)} {outs : List (List β)} (h1 : outs.length = k)
    (h2 : ∀ (i : Nat) (o : List β), outs[i]? = some o → o.length = (T i).length) (h3 : ∀ w ∈ ws, w.1 < k ∧ Piece (T w.1) w.2.1 w.2.2)
    (h4 : ∀ i j, i < k → j < (T i).length → Covers ws i j) : runWrites outs ws = some ((List.range k).map T) := by
  obtain ⟨outs', e1, e2, e3, _⟩ := runWrites_ok ws outs h1 h2 h3
  rw [e1]
  congr 1
  apply List.ext_getElem?
  intro i
  by_cases hi : i < k
  · have hget : outs'[i]? = some outs'[i] := List.getElem?_eq_getElem (by omega)
    rw [hget, List.getElem?_map, List.getElem?_range hi]
    simp only [Option.map_some]
    congr 1
    obtain ⟨f1, f2⟩ := e3 i _ hget
    apply List.ext_getElem?
    intro j
    by_cases hj : j < (T i).length
    · exact f2 j (h4 i j hi hj)
    · rw [List.getElem?_eq_none (by omega), List.getElem?_eq_none (by omega)]
  · rw [List.getElem?_eq_none (by omega), List.getElem?_eq_none (by simp; omega)]

/-! ### One column -/

section
variable {rec : List β} {isz off w rows : Nat}

/-- The field of row `r`. -/
def field (rec : List β) (isz off w r : Nat) : List β := (rec.drop (r * isz + off)).take w

theorem field_length (hrec : rows * isz ≤ rec.length) (ho : off + w ≤ isz) {r : Nat} (hr : r < rows) : (field rec isz off w r).length = w := by
  unfold field
  rw [List.length_take, List.length_drop]
  have := Nat.mul_le_mul_right isz (Nat.succ_le_of_lt hr)
  rw [Nat.succ_mul] at this
  omega

theorem rows_length (hrec : rows * isz ≤ rec.length) (ho : off + w ≤ isz) : ∀ m s, s + m ≤ rows →
    ((List.range' s m).flatMap (field rec isz off w)).length = m * w := by
  intro m
  induction m with
  | zero => intro s _; simp
  | succ m ih =>
    intro s h
    rw [List.range'_succ, List.flatMap_cons, List.length_append, ih (s + 1) (by omega), field_length hrec ho (by omega), Nat.succ_mul]; omega

theorem fieldColumn_eq : fieldColumn rec isz off w rows = (List.range' 0 rows).flatMap (field rec isz off w) := by
  unfold fieldColumn field; rw [List.range_eq_range']

theorem fieldColumn_length (hrec : rows * isz ≤ rec.length) (ho : off + w ≤ isz) : (fieldColumn rec isz off w rows).length = rows * w := by
  rw [fieldColumn_eq]; exact rows_length hrec ho rows 0 (by omega)

theorem piece_rows (hrec : rows * isz ≤ rec.length) (ho : off + w ≤ isz) {s m : Nat} (h : s + m ≤ rows) :
    Piece (fieldColumn rec isz off w rows) ((s * w : Nat) : Int) ((List.range' s m).flatMap (field rec isz off w)) := by
  refine ⟨(List.range' 0 s).flatMap (field rec isz off w), (List.range' (s + m) (rows - s - m)).flatMap (field rec isz off w), ?_, ?_⟩
  · rw [fieldColumn_eq, ← List.flatMap_append, ← List.flatMap_append]
    congr 1
    have h1 := @List.range'_append_1 0 s m
    have h2 := @List.range'_append_1 0 (s + m) (rows - s - m)
    simp only [Nat.zero_add] at h1 h2
    rw [h1, h2]; congr 1; omega
  · rw [rows_length hrec ho s 0 (by omega)]

theorem rd_ok (hrec : rows * isz ≤ rec.length) (ho : off + w ≤ isz) {r k len : Nat} (hr : r < rows) (hk : k + len ≤ w) :
    rd rec ((off : Int) + r * isz + k) len = some (((field rec isz off w r).drop k).take len) := by
  have h1 := Nat.mul_le_mul_right isz (Nat.succ_le_of_lt hr)
  rw [Nat.succ_mul] at h1
  have e : ((off : Int) + r * isz + k) = ((r * isz + off + k : Nat) : Int) := by push_cast; ring
  rw [e]
  unfold rd field
  rw [if_pos (by omega), Int.toNat_natCast, List.drop_take, List.take_take, List.drop_drop, Nat.min_eq_left (by omega)]

theorem rd_field (hrec : rows * isz ≤ rec.length) (ho : off + w ≤ isz) {r : Nat} (hr : r < rows) :
    rd rec ((off : Int) + r * isz) w = some (field rec isz off w r) := by
  have := rd_ok (k := 0) (len := w) hrec ho hr (by omega)
  simp only [Nat.cast_zero, add_zero, List.drop_zero] at this
  rw [this, List.take_of_length_le (by rw [field_length hrec ho hr])]

/-- What the loops of one column guarantee for the rows `s .. e - 1`. -/
def ColOk (T : List β) (w s e : Nat) (ws : List (Int × List β)) : Prop :=
  (∀ p ∈ ws, Piece T p.1 p.2) ∧ ∀ j : Nat, s * w ≤ j → j < e * w → ∃ p ∈ ws, p.1 ≤ j ∧ (j : Int) < p.1 + p.2.length

theorem ColOk.append {T : List β} {w s m e : Nat} {ws ws' : List (Int × List β)} (h1 : ColOk T w s m ws) (h2 : ColOk T w m e ws') :
    ColOk T w s e (ws ++ ws') := by
  refine ⟨fun p hp => (List.mem_append.1 hp).elim (h1.1 p) (h2.1 p), fun j ha hb => ?_⟩
  by_cases hj : j < m * w
  · obtain ⟨p, hp, h⟩ := h1.2 j ha hj; exact ⟨p, by simp [hp], h⟩
  · obtain ⟨p, hp, h⟩ := h2.2 j (by omega) hb; exact ⟨p, by simp [hp], h⟩

theorem ColOk.nil {T : List β} {w s : Nat} : ColOk T w s s [] := ⟨by simp, fun j _ _ => by omega⟩

theorem colOk_rows (hrec : rows * isz ≤ rec.length) (ho : off + w ≤ isz) {s m : Nat} (h : s + m ≤ rows) :
    ColOk (fieldColumn rec isz off w rows) w s (s + m) [(((s * w : Nat) : Int), (List.range' s m).flatMap (field rec isz off w))] := by
  refine ⟨fun p hp => ?_, fun j h1 h2 => ?_⟩
  · obtain rfl := List.mem_singleton.1 hp
    exact piece_rows hrec ho h
  · refine ⟨_, List.mem_singleton.2 rfl, by simp only; omega, ?_⟩
    simp only
    rw [rows_length hrec ho m s h]
    rw [Nat.add_mul] at h2
    omega

theorem rowLoop_ok (hrec : rows * isz ≤ rec.length) (ho : off + w ≤ isz) {e : Nat} (he : e ≤ rows) : ∀ d s, s + d = e →
    ∃ ws, rowLoop rec isz ⟨off, w⟩ e s = some (ws, e) ∧ ColOk (fieldColumn rec isz off w rows) w s e ws := by
  intro d
  induction d with
  | zero =>
    intro s hs
    obtain rfl : s = e := by omega
    exact ⟨[], by rw [rowLoop, dif_neg (by omega)], .nil⟩
  | succ d ih =>
    intro s hs
    obtain ⟨ws, h1, h2⟩ := ih (s + 1) (by omega)
    refine ⟨(((s * w : Nat) : Int), field rec isz off w s) :: ws, ?_, ?_⟩
    · rw [rowLoop, dif_pos (by omega)]
      simp only
      rw [rd_field hrec ho (by omega), Option.bind_eq_bind, Option.bind_some, h1]; rfl
    · have := (colOk_rows hrec ho (s := s) (m := 1) (by omega)).append h2
      simpa using this

theorem vindex_ok {l : Nat} (h : isz * l < 2 ^ 31) : vindex isz l = (isz : Int) * l := by
  unfold vindex
  have : BitVec.ofNat 32 isz * BitVec.ofNat 32 l = BitVec.ofNat 32 (isz * l) := (BitVec.ofNat_mul ..).symm
  rw [this, BitVec.toInt_ofNat', Int.bmod_def]
  push_cast at *
  omega

theorem gather_ok (hrec : rows * isz ≤ rec.length) (ho : off + w ≤ isz) {s lanes : Nat} (hl : isz * lanes < 2 ^ 31) (hs : s + lanes ≤ rows) :
    ∀ l, l ≤ lanes → gather rec isz ((off : Int) + s * isz) w l = some ((List.range' s l).flatMap (field rec isz off w)) := by
  intro l
  induction l with
  | zero => intro _; rfl
  | succ l ih =>
    intro hle
    have hm : isz * l ≤ isz * lanes := Nat.mul_le_mul_left _ (by omega)
    have e : (off : Int) + s * isz + (isz : Int) * l = (off : Int) + ((s + l : Nat) : Int) * isz := by push_cast; ring
    rw [gather, ih (by omega), vindex_ok (by omega), e, Option.bind_eq_bind, Option.bind_some, rd_field hrec ho (by omega), Option.bind_some,
      List.range'_concat, List.flatMap_append]
    simp

theorem gatherLoop_ok (hrec : rows * isz ≤ rec.length) (ho : off + w ≤ isz) {e lanes : Nat} (he : e ≤ rows) (h0 : 0 < lanes) :
    ∀ d s, s + d = e → (lanes < d → isz * lanes < 2 ^ 31) → ∃ ws s', gatherLoop rec isz ⟨off, w⟩ lanes ((e : Int) - lanes) s = some (ws, s') ∧ s ≤ s' ∧ s' ≤ e ∧
      ColOk (fieldColumn rec isz off w rows) w s s' ws := by
  intro d
  induction d using Nat.strongRecOn with
  | _ d ih =>
    intro s hs hov
    rw [gatherLoop]
    by_cases hc : (s : Int) < (e : Int) - lanes ∧ 0 < lanes
    · rw [dif_pos hc]
      obtain ⟨ws, s', h1, h2, h3, h4⟩ := ih (d - lanes) (by omega) (s + lanes) (by omega) (fun h => hov (by omega))
      refine ⟨(((s * w : Nat) : Int), (List.range' s lanes).flatMap (field rec isz off w)) :: ws, s', ?_, by omega, h3, ?_⟩
      · simp only
        rw [gather_ok hrec ho (hov (by omega)) (by omega) lanes (Nat.le_refl _), Option.bind_eq_bind, Option.bind_some, h1]; rfl
      · have := (colOk_rows hrec ho (s := s) (m := lanes) (by omega)).append h4
        simpa using this
    · rw [dif_neg hc]
      exact ⟨[], s, rfl, Nat.le_refl _, by omega, .nil⟩

theorem copyBytes_ok (hrec : rows * isz ≤ rec.length) (ho : off + w ≤ isz) {r : Nat} (hr : r < rows) : ∀ n k, k + n = w →
    ∃ ws, copyBytes rec n ((off : Int) + r * isz + k) (((r * w + k : Nat)) : Int) = some ws ∧ (∀ p ∈ ws, Piece (fieldColumn rec isz off w rows) p.1 p.2) ∧
      ∀ j : Nat, r * w + k ≤ j → j < r * w + w → ∃ p ∈ ws, p.1 ≤ j ∧ (j : Int) < p.1 + p.2.length := by
  intro n
  induction n with
  | zero => intro k hk; exact ⟨[], rfl, by simp, fun j _ _ => by omega⟩
  | succ n ih =>
    intro k hk
    obtain ⟨ws, h1, h2, h3⟩ := ih (k + 1) (by omega)
    have e1 : (off : Int) + r * isz + k + 1 = (off : Int) + r * isz + ((k + 1 : Nat) : Int) := by push_cast; ring
    have e2 : ((r * w + k : Nat) : Int) + 1 = ((r * w + (k + 1) : Nat) : Int) := by push_cast; ring
    have hlen := field_length hrec ho hr
    have hpc : Piece (fieldColumn rec isz off w rows) ((r * w + k : Nat) : Int) (((field rec isz off w r).drop k).take 1) := by
      have hp := piece_rows hrec ho (s := r) (m := 1) (by omega)
      simp only [List.range'_one, List.flatMap_cons, List.flatMap_nil, List.append_nil] at hp
      have hsplit : field rec isz off w r = (field rec isz off w r).take k ++ ((field rec isz off w r).drop k).take 1 ++ (field rec isz off w r).drop (k + 1) := by
        rw [List.append_assoc, ← List.drop_drop, List.take_append_drop, List.take_append_drop]
      rw [hsplit] at hp
      have := hp.sub
      rw [List.length_take, hlen, Nat.min_eq_left (by omega)] at this
      push_cast
      push_cast at this
      exact this
    refine ⟨(((r * w + k : Nat) : Int), ((field rec isz off w r).drop k).take 1) :: ws, ?_, ?_, ?_⟩
    · rw [copyBytes, rd_ok hrec ho hr (by omega), Option.bind_eq_bind, Option.bind_some, e1, e2, h1]; rfl
    · intro p hp
      rcases List.mem_cons.1 hp with rfl | hp
      · exact hpc
      · exact h2 p hp
    · intro j hj1 hj2
      by_cases hj : j = r * w + k
      · refine ⟨_, List.mem_cons_self, by simp only; omega, ?_⟩
        simp only
        rw [List.length_take, List.length_drop, hlen]; omega
      · obtain ⟨p, hp, h⟩ := h3 j (by omega) hj2
        exact ⟨p, by simp [hp], h⟩

theorem copyItem_ok (hrec : rows * isz ≤ rec.length) (ho : off + w ≤ isz) {r : Nat} (hr : r < rows) : ∀ n k, k + n = w →
    ∃ ws, copyItem rec n ((off : Int) + r * isz + k) (((r * w + k : Nat)) : Int) = some ws ∧ (∀ p ∈ ws, Piece (fieldColumn rec isz off w rows) p.1 p.2) ∧
      ∀ j : Nat, r * w + k ≤ j → j < r * w + w → ∃ p ∈ ws, p.1 ≤ j ∧ (j : Int) < p.1 + p.2.length := by
  intro n
  induction n using Nat.strongRecOn with
  | _ n ih =>
    intro k hk
    rw [copyItem]
    by_cases hn : 8 < n
    · rw [dif_pos hn]
      obtain ⟨ws, h1, h2, h3⟩ := ih (n - 8) (by omega) (k + 8) (by omega)
      have e1 : (off : Int) + r * isz + k + 8 = (off : Int) + r * isz + ((k + 8 : Nat) : Int) := by push_cast; ring
      have e2 : ((r * w + k : Nat) : Int) + 8 = ((r * w + (k + 8) : Nat) : Int) := by push_cast; ring
      have hlen := field_length hrec ho hr
      have hpc : Piece (fieldColumn rec isz off w rows) ((r * w + k : Nat) : Int) (((field rec isz off w r).drop k).take 8) := by
        have hp := piece_rows hrec ho (s := r) (m := 1) (by omega)
        simp only [List.range'_one, List.flatMap_cons, List.flatMap_nil, List.append_nil] at hp
        have hsplit : field rec isz off w r = (field rec isz off w r).take k ++ ((field rec isz off w r).drop k).take 8 ++ (field rec isz off w r).drop (k + 8) := by
          rw [List.append_assoc, ← List.drop_drop, List.take_append_drop, List.take_append_drop]
        rw [hsplit] at hp
        have := hp.sub
        rw [List.length_take, hlen, Nat.min_eq_left (by omega)] at this
        push_cast
        push_cast at this
        exact this
      refine ⟨(((r * w + k : Nat) : Int), ((field rec isz off w r).drop k).take 8) :: ws, ?_, ?_, ?_⟩
      · rw [rd_ok hrec ho hr (by omega), Option.bind_eq_bind, Option.bind_some, e1, e2, h1]; rfl
      · intro p hp
        rcases List.mem_cons.1 hp with rfl | hp
        · exact hpc
        · exact h2 p hp
      · intro j hj1 hj2
        by_cases hj : j < r * w + k + 8
        · refine ⟨_, List.mem_cons_self, by simp only; omega, ?_⟩
          simp only
          rw [List.length_take, List.length_drop, hlen]; omega
        · obtain ⟨p, hp, h⟩ := h3 j (by omega) hj2
          exact ⟨p, by simp [hp], h⟩
    · rw [dif_neg hn]
      exact copyBytes_ok hrec ho hr n k hk

theorem itemLoop_ok (hrec : rows * isz ≤ rec.length) (ho : off + w ≤ isz) {e : Nat} (he : e ≤ rows) : ∀ d s, s + d = e →
    ∃ ws, itemLoop rec isz ⟨off, w⟩ e s = some (ws, e) ∧ ColOk (fieldColumn rec isz off w rows) w s e ws := by
  intro d
  induction d with
  | zero =>
    intro s hs
    obtain rfl : s = e := by omega
    exact ⟨[], by rw [itemLoop, dif_neg (by omega)], .nil⟩
  | succ d ih =>
    intro s hs
    obtain ⟨ws, h1, h2⟩ := ih (s + 1) (by omega)
    obtain ⟨xs, g1, g2, g3⟩ := copyItem_ok hrec ho (r := s) (by omega) w 0 (by omega)
    simp only [Nat.cast_zero, add_zero] at g1 g3
    refine ⟨xs ++ ws, ?_, ?_⟩
    · rw [itemLoop, dif_pos (by omega)]
      simp only
      rw [g1, Option.bind_eq_bind, Option.bind_some, h1]; rfl
    · refine ColOk.append ⟨g2, fun j a b => g3 j (by omega) ?_⟩ h2
      rw [Nat.succ_mul] at b; omega

theorem column_ok (hrec : rows * isz ≤ rec.length) (ho : off + w ≤ isz) {s e : Nat} (hse : s ≤ e) (he : e ≤ rows)
    (hov : 4 < e - s → isz * 8 < 2 ^ 31) :
    ∃ ws, column rec isz ⟨off, w⟩ s e = some (ws, e) ∧ ColOk (fieldColumn rec isz off w rows) w s e ws := by
  unfold column
  simp only
  split
  · exact rowLoop_ok hrec ho he (e - s) s (by omega)
  · split
    · next h48 =>
      have hl0 : 0 < (if w = 4 then 8 else 4) := by split <;> omega
      have hl8 : 4 ≤ (if w = 4 then 8 else 4) ∧ (if w = 4 then 8 else 4) ≤ 8 := by split <;> omega
      generalize (if w = 4 then 8 else 4) = lanes at *
      obtain ⟨ws, s', h1, h2, h3, h4⟩ := gatherLoop_ok hrec ho (e := e) (lanes := lanes) he hl0 (e - s) s (by omega) (fun h => by
        have := hov (by omega)
        have := Nat.mul_le_mul_left isz hl8.2
        omega)
      obtain ⟨ws', g1, g2⟩ := rowLoop_ok hrec ho he (e - s') s' (by omega)
      refine ⟨ws ++ ws', ?_, h4.append g2⟩
      rw [h1, Option.bind_eq_bind, Option.bind_some]
      simp only
      rw [g1]; rfl
    · exact itemLoop_ok hrec ho he (e - s) s (by omega)

end

/-! ### All columns -/

/-- The target of output array `i`. -/
def target (rec : List β) (isz rows : Nat) (cols : List Col) (i : Nat) : List β :=
  match cols[i]? with
  | some c => fieldColumn rec isz c.readoffset.toNat c.itemsize rows
  | none => []

/-- The fields lie inside a record. -/
def Valid (isz : Nat) (cols : List Col) : Prop := ∀ c ∈ cols, 0 ≤ c.readoffset ∧ c.readoffset + c.itemsize ≤ isz

/-- What a run over rows `s .. e - 1` guarantees. -/
def BlockOk (T : Nat → List β) (cols : List Col) (s e : Nat) (i0 : Nat) (ws : List (Write β)) : Prop :=
  (∀ w ∈ ws, w.1 < i0 + cols.length ∧ Piece (T w.1) w.2.1 w.2.2) ∧
  ∀ (i : Nat) (c : Col) (j : Nat), cols[i]? = some c → s * c.itemsize ≤ j → j < e * c.itemsize → Covers ws (i0 + i) j

theorem columns_ok {rec : List β} {isz rows : Nat} (hrec : rows * isz ≤ rec.length) {s e : Nat} (hse : s ≤ e) (he : e ≤ rows)
    (hov : 4 < e - s → isz * 8 < 2 ^ 31) (T : Nat → List β) : ∀ (cols : List Col) (i0 x : Nat), Valid isz cols →
    (∀ i c, cols[i]? = some c → T (i0 + i) = fieldColumn rec isz c.readoffset.toNat c.itemsize rows) →
    ∃ ws, columns rec isz s e i0 cols x = some (ws, if cols = [] then x else e) ∧ BlockOk T cols s e i0 ws := by
  intro cols
  induction cols with
  | nil => intro i0 x _ _; exact ⟨[], rfl, by simp, by simp⟩
  | cons c cols ih =>
    intro i0 x hv hT
    obtain ⟨hc1, hc2⟩ := hv c (by simp)
    obtain ⟨o, ho⟩ : ∃ o : Nat, c.readoffset = o := ⟨c.readoffset.toNat, by omega⟩
    obtain ⟨off, w⟩ := c
    simp only at hc1 hc2 ho
    subst ho
    obtain ⟨ws, h1, h2⟩ := column_ok hrec (off := o) (w := w) (by omega) hse he hov
    obtain ⟨ws', g1, g2⟩ := ih (i0 + 1) e (fun c hc => hv c (by simp [hc])) (fun i c hc => by
      have := hT (i + 1) c (by simpa using hc)
      rw [← this]; congr 1; omega)
    have hT0 := hT 0 ⟨o, w⟩ (by simp)
    simp only [Nat.add_zero, Int.toNat_natCast] at hT0
    refine ⟨ws.map (fun w => (i0, w)) ++ ws', ?_, ?_, ?_⟩
    · rw [columns, h1, Option.bind_eq_bind, Option.bind_some]
      simp only
      rw [g1]
      simp
    · intro p hp
      rcases List.mem_append.1 hp with hp | hp
      · obtain ⟨q, hq, rfl⟩ := List.mem_map.1 hp
        refine ⟨by simp, ?_⟩
        simp only
        rw [hT0]
        exact h2.1 q hq
      · have := g2.1 p hp
        refine ⟨by simp only [List.length_cons]; omega, this.2⟩
    · intro i c j hc hj1 hj2
      cases i with
      | zero =>
        obtain rfl : (⟨(o : Int), w⟩ : Col) = c := by simpa using hc
        obtain ⟨p, hp, h⟩ := h2.2 j hj1 hj2
        exact ⟨p.1, p.2, by simpa using Or.inl hp, h.1, h.2⟩
      | succ i =>
        obtain ⟨off', x', hm, h⟩ := g2.2 i c j (by simpa using hc) hj1 hj2
        rw [show i0 + 1 + i = i0 + (i + 1) by omega] at hm
        exact ⟨off', x', List.mem_append.2 (Or.inr hm), h⟩

theorem BlockOk.append {T : Nat → List β} {cols : List Col} {s m e : Nat} {ws ws' : List (Write β)} (h1 : BlockOk T cols s m 0 ws) (h2 : BlockOk T cols m e 0 ws') :
    BlockOk T cols s e 0 (ws ++ ws') := by
  refine ⟨fun p hp => (List.mem_append.1 hp).elim (h1.1 p) (h2.1 p), fun i c j hc ha hb => ?_⟩
  by_cases hj : j < m * c.itemsize
  · obtain ⟨o, x, hp, h⟩ := h1.2 i c j hc ha hj; exact ⟨o, x, List.mem_append.2 (Or.inl hp), h⟩
  · obtain ⟨o, x, hp, h⟩ := h2.2 i c j hc (by omega) hb; exact ⟨o, x, List.mem_append.2 (Or.inr hp), h⟩

theorem target_eq (rec : List β) (isz rows : Nat) (cols : List Col) (i : Nat) (c : Col) (h : cols[i]? = some c) :
    target rec isz rows cols (0 + i) = fieldColumn rec isz c.readoffset.toNat c.itemsize rows := by
  unfold target; rw [Nat.zero_add, h]

theorem chunkRows_ok {isz chunk : Nat} (h : chunkRows isz = some chunk) : 0 < isz ∧ 0 < chunk ∧ (4 < chunk → isz * 8 < 2 ^ 31) := by
  unfold chunkRows at h
  split at h
  · cases h
  · next h0 =>
    have h := Option.some.inj h
    refine ⟨by omega, by split at h <;> omega, fun h4 => ?_⟩
    have : 4 < 32768 / (isz * 2) := by split at h <;> omega
    have := (Nat.le_div_iff_mul_le (by omega)).1 this
    omega

theorem conv_ok {rec : List β} {isz chunk rows : Nat} {cols : List Col} (hrec : rows * isz ≤ rec.length) (hv : Valid isz cols) (hne : cols ≠ [])
    (hc : chunkRows isz = some chunk) {e : Nat} (he : e ≤ rows) : ∀ d s, s + d = e →
    ∃ ws, Conv rec isz chunk cols e s (some ws) ∧ BlockOk (target rec isz rows cols) cols s e 0 ws := by
  obtain ⟨_, hch, hov⟩ := chunkRows_ok hc
  intro d
  induction d using Nat.strongRecOn with
  | _ d ih =>
    intro s hs
    by_cases hd : d = 0
    · obtain rfl : s = e := by omega
      exact ⟨[], .done (by omega), by simp, fun i c j _ h1 h2 => by omega⟩
    · obtain ⟨ws, h1, h2⟩ := columns_ok hrec (s := s) (e := min (s + chunk) e) (by omega) (by omega) (fun h => hov (by omega)) (target rec isz rows cols) cols 0 s hv
        (target_eq rec isz rows cols)
      rw [if_neg hne] at h1
      obtain ⟨ws', g1, g2⟩ := ih (e - min (s + chunk) e) (by omega) (min (s + chunk) e) (by omega)
      exact ⟨ws ++ ws', Conv.step (r := some ws') (by omega) h1 g1, h2.append g2⟩

/-- At most one outcome. -/
theorem conv_det {rec : List β} {isz chunk e : Nat} {cols : List Col} {s : Nat} {r r' : Option (List (Write β))}
    (h : Conv rec isz chunk cols e s r) (h' : Conv rec isz chunk cols e s r') : r = r' := by
  induction h generalizing r' with
  | done hs => cases h' with
    | done _ => rfl
    | fault h => omega
    | step h => omega
  | fault hs hn => cases h' with
    | done h => omega
    | fault => rfl
    | step _ h => rw [hn] at h; cases h
  | step hs hc _ ih => cases h' with
    | done h => omega
    | fault _ h => rw [hc] at h; cases h
    | step _ h h2 =>
      rw [hc] at h
      obtain ⟨rfl, rfl⟩ := Prod.mk.inj (Option.some.inj h)
      rw [ih h2]

end Pnumpy.RecArray
