import Verif.Model.GetItemEntry
import Verif.Props.GetItem
import Mathlib.Tactic.Ring
import Mathlib.Tactic.Positivity
import Mathlib.Tactic.Tauto
/-
C74: the default argument of getitem. C75: the __getitem__ hook. Both at the level of the calls a user makes.
-/
namespace Pnumpy.GetItem
open Pnumpy.Chunks Pnumpy.Strides Spec Pnumpy.Props

/-! ### The bytes of the default -/

theorem leBytes_length (k : Nat) {w : Nat} (x : BitVec w) : (leBytes k x).length = k := by simp [leBytes]

theorem set1_take {w : Nat} (hw : w = 8 ∨ w = 16 ∨ w = 32 ∨ w = 64) (x : BitVec w) (raw : List (BitVec 8)) :
    (set1 x raw).take (w / 8) = leBytes (w / 8) x ∧ w / 8 ≤ (set1 x raw).length := by
  have h : ∃ m, 32 / (w / 8) = m + 1 := by rcases hw with rfl | rfl | rfl | rfl <;> exact ⟨_, rfl⟩
  obtain ⟨m, hm⟩ := h
  have e : set1 x raw = leBytes (w / 8) x ++ ((List.replicate m (leBytes (w / 8) x)).flatten ++ raw.drop 32) := by
    unfold set1
    rw [hm, List.replicate_succ, List.flatten_cons, List.append_assoc]
  rw [e]
  constructor
  · rw [List.take_append_of_le_length (by rw [leBytes_length]), List.take_of_length_le (by rw [leBytes_length])]
  · rw [List.length_append, leBytes_length]; omega

/-- The casts of C are right: integers and doubles are rounded to the nearest float; a double is truncated when the result is in range (otherwise
C leaves the result undefined). -/
structure CastsOk (cv : Casts) (r : Rounding) : Prop where
  intF32 : ∀ b : BitVec 64, cv.intF32 b = r.f32 b.toInt
  intF64 : ∀ b : BitVec 64, cv.intF64 b = r.f64 b.toInt
  narrow : ∀ f, cv.narrow f = r.narrow f
  signed : ∀ (w : Nat) (_ : 0 < w) (f : BitVec 64) (v : Int), floatValue 11 52 f = .fin v → -2 ^ (w - 1) ≤ v.tdiv (2 ^ 1074) → v.tdiv (2 ^ 1074) < 2 ^ (w - 1) →
    (cv.toSigned w f).toInt = v.tdiv (2 ^ 1074)
  unsigned : ∀ (w : Nat) (f : BitVec 64) (v : Int), floatValue 11 52 f = .fin v → 0 ≤ v.tdiv (2 ^ 1074) → v.tdiv (2 ^ 1074) < 2 ^ w →
    ((cv.toUnsigned w f).toNat : Int) = v.tdiv (2 ^ 1074)

/-- The number setInt stores. -/
def storedInt (cv : Casts) (value value2 : BitVec 64) : (t : DT) → BitVec t.bits
  | .bool => value.setWidth 8 | .i8 => value.setWidth 8 | .u8 => value2.setWidth 8 | .i16 => value.setWidth 16 | .u16 => value2.setWidth 16
  | .i32 => value.setWidth 32 | .u32 => value2.setWidth 32 | .i64 => value | .u64 => value2 | .f32 => cv.intF32 value | .f64 => cv.intF64 value

/-- The number setFloat stores. -/
def storedFloat (cv : Casts) (f : BitVec 64) : (t : DT) → BitVec t.bits
  | .bool => cv.toSigned 8 f | .i8 => cv.toSigned 8 f | .u8 => cv.toUnsigned 8 f | .i16 => cv.toSigned 16 f | .u16 => cv.toUnsigned 16 f
  | .i32 => cv.toSigned 32 f | .u32 => cv.toUnsigned 32 f | .i64 => cv.toSigned 64 f | .u64 => cv.toUnsigned 64 f | .f32 => cv.narrow f | .f64 => f

theorem numType_cases {dtype : Nat} {t : DT} (h : numType dtype = some t) :
    (dtype = 0 ∧ t = .bool) ∨ (dtype = 1 ∧ t = .i8) ∨ (dtype = 2 ∧ t = .u8) ∨ (dtype = 3 ∧ t = .i16) ∨ (dtype = 4 ∧ t = .u16) ∨
    (dtype = 5 ∧ t = .i32) ∨ (dtype = 6 ∧ t = .u32) ∨ (dtype = 7 ∧ t = .i64) ∨ (dtype = 8 ∧ t = .u64) ∨ (dtype = 9 ∧ t = .i64) ∨
    (dtype = 10 ∧ t = .u64) ∨ (dtype = 11 ∧ t = .f32) ∨ (dtype = 12 ∧ t = .f64) := by
  unfold numType at h
  split at h <;> first | (cases h; done) | (cases h; simp)

theorem bits_cases (t : DT) : t.bits = 8 ∨ t.bits = 16 ∨ t.bits = 32 ∨ t.bits = 64 := by cases t <;> decide

theorem setInt_eq (cv : Casts) {dtype : Nat} {t : DT} (h : numType dtype = some t) (value value2 : BitVec 64) (raw : List (BitVec 8)) :
    setInt cv dtype value value2 raw = some (set1 (storedInt cv value value2 t) raw) := by
  rcases numType_cases h with ⟨rfl, rfl⟩ | ⟨rfl, rfl⟩ | ⟨rfl, rfl⟩ | ⟨rfl, rfl⟩ | ⟨rfl, rfl⟩ | ⟨rfl, rfl⟩ | ⟨rfl, rfl⟩ | ⟨rfl, rfl⟩ | ⟨rfl, rfl⟩ |
    ⟨rfl, rfl⟩ | ⟨rfl, rfl⟩ | ⟨rfl, rfl⟩ | ⟨rfl, rfl⟩ <;> rfl

theorem setFloat_eq (cv : Casts) {dtype : Nat} {t : DT} (h : numType dtype = some t) (f : BitVec 64) (raw : List (BitVec 8)) :
    setFloat cv dtype f raw = some (set1 (storedFloat cv f t) raw) := by
  rcases numType_cases h with ⟨rfl, rfl⟩ | ⟨rfl, rfl⟩ | ⟨rfl, rfl⟩ | ⟨rfl, rfl⟩ | ⟨rfl, rfl⟩ | ⟨rfl, rfl⟩ | ⟨rfl, rfl⟩ | ⟨rfl, rfl⟩ | ⟨rfl, rfl⟩ |
    ⟨rfl, rfl⟩ | ⟨rfl, rfl⟩ | ⟨rfl, rfl⟩ | ⟨rfl, rfl⟩ <;> rfl

theorem toInt_setWidth_ofInt {w : Nat} (hw : w ≤ 64) (h0 : 0 < w) {z : Int} (h1 : -2 ^ (w - 1) ≤ z) (h2 : z < 2 ^ (w - 1)) :
    ((BitVec.ofInt 64 z).setWidth w).toInt = z := by
  rw [show (BitVec.ofInt 64 z).setWidth w = BitVec.ofInt w z from ?_]
  · rw [BitVec.toInt_ofInt]
    have : ((2 ^ w : Nat) : Int) = 2 * 2 ^ (w - 1) := by
      obtain ⟨k, rfl⟩ : ∃ k, w = k + 1 := ⟨w - 1, by omega⟩
      push_cast; rw [pow_succ]; exact Int.mul_comm _ _
    exact Int.bmod_eq_of_le (by omega) (by omega)
  · apply BitVec.eq_of_toNat_eq
    rw [BitVec.toNat_setWidth, BitVec.toNat_ofInt, BitVec.toNat_ofInt]
    have hd : ((2 ^ w : Nat) : Int) ∣ ((2 ^ 64 : Nat) : Int) := Int.natCast_dvd_natCast.2 (Nat.pow_dvd_pow 2 hw)
    have hpos : (0 : Int) < ((2 ^ w : Nat) : Int) := by positivity
    have hpos' : (0 : Int) < ((2 ^ 64 : Nat) : Int) := by positivity
    have h3 := Int.emod_nonneg z hpos.ne'
    have h4 := Int.emod_nonneg z hpos'.ne'
    apply Int.ofNat_inj.1
    rw [Int.natCast_emod, Int.toNat_of_nonneg h3, Int.toNat_of_nonneg h4, Int.emod_emod_of_dvd _ hd]

theorem toNat_setWidth_ofInt {w : Nat} (hw : w ≤ 64) {z : Int} (h1 : 0 ≤ z) (h2 : z < 2 ^ w) :
    ((((BitVec.ofInt 64 z).setWidth w).toNat : Nat) : Int) = z := by
  rw [BitVec.toNat_setWidth, BitVec.toNat_ofInt]
  have h64 : (2 : Int) ^ w ≤ 2 ^ 64 := pow_le_pow_right₀ (by decide) hw
  rw [Int.emod_eq_of_lt h1 (by push_cast; omega)]
  push_cast
  rw [Int.toNat_of_nonneg h1, Int.emod_eq_of_lt h1 h2]

theorem pyLong_in {z : Int} (h1 : -2 ^ 63 ≤ z) (h2 : z < 2 ^ 63) : pyLong z = (BitVec.ofInt 64 z, BitVec.ofInt 64 z) := by
  unfold pyLong; rw [if_neg (by omega), if_neg (by omega)]

theorem storedInt_means {cv : Casts} {r : Rounding} (hc : CastsOk cv r) {t : DT} {z : Int} (hz : HoldsInt t z)
    (hf : t = .f32 ∨ t = .f64 → -2 ^ 63 ≤ z ∧ z < 2 ^ 63) : MeansInt r t z (storedInt cv (BitVec.ofInt 64 z) (BitVec.ofInt 64 z) t) := by
  have h64 : -2 ^ 63 ≤ z → z < 2 ^ 63 → (BitVec.ofInt 64 z).toInt = z := fun h1 h2 => by
    have := toInt_setWidth_ofInt (w := 64) (by omega) (by omega) h1 h2
    rwa [BitVec.setWidth_eq] at this
  cases t with
  | bool =>
    rcases hz with rfl | rfl <;> rfl
  | i8 => exact congrArg Value.fin (toInt_setWidth_ofInt (w := 8) (by omega) (by omega) hz.1 hz.2)
  | i16 => exact congrArg Value.fin (toInt_setWidth_ofInt (w := 16) (by omega) (by omega) hz.1 hz.2)
  | i32 => exact congrArg Value.fin (toInt_setWidth_ofInt (w := 32) (by omega) (by omega) hz.1 hz.2)
  | i64 => exact congrArg Value.fin (h64 hz.1 hz.2)
  | u8 => exact congrArg Value.fin (toNat_setWidth_ofInt (w := 8) (by omega) hz.1 hz.2)
  | u16 => exact congrArg Value.fin (toNat_setWidth_ofInt (w := 16) (by omega) hz.1 hz.2)
  | u32 => exact congrArg Value.fin (toNat_setWidth_ofInt (w := 32) (by omega) hz.1 hz.2)
  | u64 =>
    have := toNat_setWidth_ofInt (w := 64) (by omega) hz.1 hz.2
    rw [BitVec.setWidth_eq] at this
    exact congrArg Value.fin this
  | f32 =>
    have h := hf (Or.inl rfl)
    show cv.intF32 _ = _
    rw [hc.intF32, h64 h.1 h.2]
  | f64 =>
    have h := hf (Or.inr rfl)
    show cv.intF64 _ = _
    rw [hc.intF64, h64 h.1 h.2]

theorem storedFloat_means {cv : Casts} {r : Rounding} (hc : CastsOk cv r) {t : DT} {f : BitVec 64} (h : Holds t (.float f)) :
    MeansFloat r t f (storedFloat cv f t) := by
  have key : ∀ {v : Int}, floatValue 11 52 f = .fin v → HoldsInt t (v.tdiv (2 ^ 1074)) → t ≠ .f32 → t ≠ .f64 → t ≠ .bool →
      value t (storedFloat cv f t) = .fin (v.tdiv (2 ^ 1074)) := by
    intro v hv hr h1 h2 h3
    generalize hq : v.tdiv (2 ^ 1074) = q at *
    cases t with
    | bool => exact absurd rfl h3
    | f32 => exact absurd rfl h1
    | f64 => exact absurd rfl h2
    | i8 => exact congrArg Value.fin ((hc.signed 8 (by decide) f v hv (hq ▸ hr.1) (hq ▸ hr.2)).trans hq)
    | i16 => exact congrArg Value.fin ((hc.signed 16 (by decide) f v hv (hq ▸ hr.1) (hq ▸ hr.2)).trans hq)
    | i32 => exact congrArg Value.fin ((hc.signed 32 (by decide) f v hv (hq ▸ hr.1) (hq ▸ hr.2)).trans hq)
    | i64 => exact congrArg Value.fin ((hc.signed 64 (by decide) f v hv (hq ▸ hr.1) (hq ▸ hr.2)).trans hq)
    | u8 => exact congrArg Value.fin ((hc.unsigned 8 f v hv (hq ▸ hr.1) (hq ▸ hr.2)).trans hq)
    | u16 => exact congrArg Value.fin ((hc.unsigned 16 f v hv (hq ▸ hr.1) (hq ▸ hr.2)).trans hq)
    | u32 => exact congrArg Value.fin ((hc.unsigned 32 f v hv (hq ▸ hr.1) (hq ▸ hr.2)).trans hq)
    | u64 => exact congrArg Value.fin ((hc.unsigned 64 f v hv (hq ▸ hr.1) (hq ▸ hr.2)).trans hq)
  rcases h with (rfl | rfl) | ⟨v, hv, hr, hb⟩
  · exact hc.narrow f
  · rfl
  · cases t with
    | f32 => exact hc.narrow f
    | f64 => rfl
    | bool =>
      refine ⟨v, hv, ?_⟩
      have hq : (v.tdiv (2 ^ 1074) = 0 ∨ v.tdiv (2 ^ 1074) = 1) := hr
      have h1 := hc.signed 8 (by decide) f v hv
      generalize v.tdiv (2 ^ 1074) = q at *
      have h2 := h1 (by omega) (by omega)
      show Value.fin (if cv.toSigned 8 f = 0 then 0 else 1) = _
      rcases hq with rfl | rfl
      · rw [if_pos (BitVec.eq_of_toInt_eq (by rw [h2]; rfl))]
      · rw [if_neg (fun h => by rw [h] at h2; exact absurd h2 (by decide))]
    | i8 => exact ⟨v, hv, key hv hr (by decide) (by decide) (by decide)⟩
    | i16 => exact ⟨v, hv, key hv hr (by decide) (by decide) (by decide)⟩
    | i32 => exact ⟨v, hv, key hv hr (by decide) (by decide) (by decide)⟩
    | i64 => exact ⟨v, hv, key hv hr (by decide) (by decide) (by decide)⟩
    | u8 => exact ⟨v, hv, key hv hr (by decide) (by decide) (by decide)⟩
    | u16 => exact ⟨v, hv, key hv hr (by decide) (by decide) (by decide)⟩
    | u32 => exact ⟨v, hv, key hv hr (by decide) (by decide) (by decide)⟩
    | u64 => exact ⟨v, hv, key hv hr (by decide) (by decide) (by decide)⟩

/-- The defaults for which the bytes are right: everything the type holds, except integers outside int64 for a float type. -/
def Served (t : DT) (d : Scalar) : Prop :=
  Holds t d ∧ ∀ z, (d = .pyInt z ∨ d = .npInt z) → t = .f32 ∨ t = .f64 → -2 ^ 63 ≤ z ∧ z < 2 ^ 63

theorem sentinel_invalid {dtype : Nat} {t : DT} (h : numType dtype = some t) :
    ∃ x : BitVec t.bits, IsInvalid t x ∧ (sentinel dtype).take (t.bits / 8) = leBytes (t.bits / 8) x ∧ t.bits / 8 ≤ (sentinel dtype).length := by
  rcases numType_cases h with ⟨rfl, rfl⟩ | ⟨rfl, rfl⟩ | ⟨rfl, rfl⟩ | ⟨rfl, rfl⟩ | ⟨rfl, rfl⟩ | ⟨rfl, rfl⟩ | ⟨rfl, rfl⟩ | ⟨rfl, rfl⟩ | ⟨rfl, rfl⟩ |
    ⟨rfl, rfl⟩ | ⟨rfl, rfl⟩ | ⟨rfl, rfl⟩ | ⟨rfl, rfl⟩
  · exact ⟨(0 : BitVec 8), rfl, by decide, by decide⟩
  · exact ⟨(0x80 : BitVec 8), by unfold IsInvalid; decide, by decide, by decide⟩
  · exact ⟨(0xFF : BitVec 8), by unfold IsInvalid; decide, by decide, by decide⟩
  · exact ⟨(0x8000 : BitVec 16), by unfold IsInvalid; decide, by decide, by decide⟩
  · exact ⟨(0xFFFF : BitVec 16), by unfold IsInvalid; decide, by decide, by decide⟩
  · exact ⟨(0x80000000 : BitVec 32), by unfold IsInvalid; decide, by decide, by decide⟩
  · exact ⟨(0xFFFFFFFF : BitVec 32), by unfold IsInvalid; decide, by decide, by decide⟩
  · exact ⟨(0x8000000000000000 : BitVec 64), by unfold IsInvalid; decide, by decide, by decide⟩
  · exact ⟨(0xFFFFFFFFFFFFFFFF : BitVec 64), by unfold IsInvalid; decide, by decide, by decide⟩
  · exact ⟨(0x8000000000000000 : BitVec 64), by unfold IsInvalid; decide, by decide, by decide⟩
  · exact ⟨(0xFFFFFFFFFFFFFFFF : BitVec 64), by unfold IsInvalid; decide, by decide, by decide⟩
  · exact ⟨(0x7FC00000 : BitVec 32), by unfold IsInvalid; decide, by decide, by decide⟩
  · exact ⟨(0x7FF8000000000000 : BitVec 64), by unfold IsInvalid; decide, by decide, by decide⟩

theorem default_means {cv : Casts} {r : Rounding} (hc : CastsOk cv r) {dtype : Nat} {t : DT} (ht : numType dtype = some t) {d : Scalar} (hd : Served t d) :
    ∃ x : BitVec t.bits, Means r t x d ∧ ∀ raw, (defaultMem cv dtype raw d).take (t.bits / 8) = leBytes (t.bits / 8) x ∧
      t.bits / 8 ≤ (defaultMem cv dtype raw d).length := by
  have hint : ∀ z, HoldsInt t z → (t = .f32 ∨ t = .f64 → -2 ^ 63 ≤ z ∧ z < 2 ^ 63) → ∀ (a b : BitVec 64), storedInt cv a b t = storedInt cv (BitVec.ofInt 64 z) (BitVec.ofInt 64 z) t →
      ∃ x : BitVec t.bits, MeansInt r t z x ∧ ∀ raw, (((setInt cv dtype a b raw).getD (sentinel dtype)).take (t.bits / 8) = leBytes (t.bits / 8) x ∧
        t.bits / 8 ≤ ((setInt cv dtype a b raw).getD (sentinel dtype)).length) := by
    intro z hz hf a b hab
    refine ⟨_, storedInt_means hc hz hf, fun raw => ?_⟩
    rw [setInt_eq cv ht, Option.getD_some, hab]
    exact set1_take (bits_cases t) _ _
  have hb : ∀ b : Bool, HoldsInt t (if b then 1 else 0) := by
    intro b; cases b <;> cases t <;> simp [HoldsInt]
  have hbool : ∀ b : Bool, BitVec.ofInt 64 (if b then 1 else 0) = if b then 1 else 0 := by decide
  obtain ⟨h1, h2⟩ := hd
  cases d with
  | none =>
    obtain ⟨x, h1, h2⟩ := sentinel_invalid ht
    exact ⟨x, h1, fun _ => h2⟩
  | pyBool b => exact hint _ (hb b) (fun _ => by cases b <;> simp) _ _ (by rw [hbool])
  | npBool b => exact hint _ (hb b) (fun _ => by cases b <;> simp) _ _ (by rw [hbool])
  | pyInt z =>
    refine hint z h1 (h2 z (Or.inl rfl)) _ _ ?_
    by_cases hz : -2 ^ 63 ≤ z ∧ z < 2 ^ 63
    · rw [pyLong_in hz.1 hz.2]
    · have h3 := h2 z (Or.inl rfl)
      have h4 : t = .u64 := by
        have h1' : HoldsInt t z := h1
        cases t <;> first | rfl | (exact absurd (h3 (Or.inl rfl)) hz) | (exact absurd (h3 (Or.inr rfl)) hz) | (simp only [HoldsInt] at h1'; omega)
      subst h4
      have h1' : 0 ≤ z ∧ z < 2 ^ 64 := h1
      show (pyLong z).2 = _
      unfold pyLong
      rw [if_pos (by omega)]
      rfl
  | npInt z => exact hint z h1 (h2 z (Or.inr rfl)) _ _ rfl
  | float f =>
    refine ⟨_, storedFloat_means hc h1, fun raw => ?_⟩
    show ((setFloat cv dtype f raw).getD (sentinel dtype)).take _ = _ ∧ _ ≤ ((setFloat cv dtype f raw).getD (sentinel dtype)).length
    rw [setFloat_eq cv ht, Option.getD_some]
    exact set1_take (bits_cases t) _ _
  | npTime => exact absurd h1 id
  | bytes s => exact absurd h1 id
  | str s => exact absurd h1 id
  | other => exact absurd h1 id

/-! ### C74 -/

theorem mapM_length {α γ : Type} (f : α → Option γ) : ∀ (l : List α) (r : List γ), l.mapM f = some r → r.length = l.length := by
  intro l
  induction l with
  | nil => intro r h; simp at h; subst h; rfl
  | cons a l ih =>
    intro r h
    rw [List.mapM_cons] at h
    cases ha : f a with
    | none => rw [ha] at h; cases h
    | some b =>
      cases hl : l.mapM f with
      | none => rw [ha, hl] at h; cases h
      | some m =>
        rw [ha, hl] at h
        obtain rfl := Option.some.inj h
        simp [ih m hl]

theorem readItem_length {mem : Int → Option (BitVec 8)} {k : Nat} {p : Int} {l : List (BitVec 8)} (h : readItem mem k p = some l) : l.length = k := by
  have := mapM_length _ _ _ h; simpa using this

theorem foldr_leBytes (x : Nat) : ∀ (k b : Nat),
    ((List.range' b k).map fun i => BitVec.ofNat 8 (x / 256 ^ i)).foldr (fun (b : BitVec 8) (acc : Nat) => b.toNat + 256 * acc) 0 = x / 256 ^ b % 256 ^ k := by
  intro k
  induction k with
  | zero => intro b; simp [Nat.mod_one]
  | succ k ih =>
    intro b
    rw [List.range'_succ, List.map_cons, List.foldr_cons, ih, BitVec.toNat_ofNat]
    rw [show (256 : Nat) ^ (k + 1) = 256 * 256 ^ k by rw [Nat.pow_succ, Nat.mul_comm], Nat.mod_mul, Nat.div_div_eq_div_mul, ← Nat.pow_succ]

/-- An index is read as the signed number its bytes make up. -/
theorem readIndex_leBytes {mem : Int → Option (BitVec 8)} {w : Nat} {p : Int} {x : BitVec (8 * w)} (h : readItem mem w p = some (leBytes w x)) :
    readIndex mem w p = some x.toInt := by
  unfold readIndex
  rw [h, Option.map_some]
  have e : leBytes w x = (List.range' 0 w).map fun i => BitVec.ofNat 8 (x.toNat / 256 ^ i) := by
    unfold leBytes
    rw [List.range_eq_range']
    refine List.map_congr_left fun i _ => ?_
    apply BitVec.eq_of_toNat_eq
    rw [BitVec.extractLsb'_toNat, BitVec.toNat_ofNat, Nat.shiftRight_eq_div_pow, show (256 : Nat) ^ i = 2 ^ (8 * i) by rw [Nat.pow_mul]]
  rw [e, foldr_leBytes, Nat.pow_zero, Nat.div_one, show (256 : Nat) ^ w = 2 ^ (8 * w) by rw [Nat.pow_mul], Nat.mod_eq_of_lt x.isLt]
  simp

/-- A 1-D array argument with `n` items `item 0`, `item 1`, ... in memory. -/
structure OneDim (a : Arg) (n : Nat) (s : Int) (item : Nat → List (BitVec 8)) : Prop where
  dims : a.dims = [n]
  strides : a.strides = [s]
  holds : ∀ i : Nat, i < n → readItem a.mem a.itemsize (i * s) = some (item i)

/-- Type number and item size of the signed and the unsigned integer arrays. -/
def IndexArray (a : Arg) (w : Nat) (uns : Bool) : Prop :=
  (a.dtype, w) ∈ (if uns then [(2, 1), (4, 2), (6, 4), (8, 8), (10, 8)] else [(1, 1), (3, 2), (5, 4), (7, 8), (9, 8)]) ∧ a.itemsize = w

theorem oneDim_usable {a : Arg} {n : Nat} {s : Int} {item : Nat → List (BitVec 8)} (h : OneDim a n s item) :
    usable a ∧ strideOf a = s ∧ calcArrayLength a.dims = n := by
  refine ⟨Or.inl ?_, ?_, ?_⟩
  · rw [h.dims, h.strides]; rfl
  · unfold strideOf; rw [h.dims, h.strides]; rfl
  · rw [h.dims]; simp [calcArrayLength]

/-- The common setting: 1-D arrays, a signed index type - or an unsigned one with numbers below half its range and values of 1, 2, 4, 8 or
16 bytes (for others see `C31_unsigned_violated`, `C31_unsigned_variable_violated`) -, threads only with contiguous values. -/
structure Setting (v i : Arg) (n k w : Nat) (sv si : Int) (item : Nat → List (BitVec 8)) (idx : Nat → BitVec (8 * w)) (uns t1 : Bool) : Prop where
  values : OneDim v n sv item
  type : IndexArray i w uns
  small : uns = true → (v.itemsize = 1 ∨ v.itemsize = 2 ∨ v.itemsize = 4 ∨ v.itemsize = 8 ∨ v.itemsize = 16) ∧ ∀ j, j < k → (idx j).msb = false
  index : OneDim i k si fun j => leBytes w (idx j)
  contig : t1 = false ∨ sv = v.itemsize
  long : t1 = true → 65536 ≤ k

theorem indexArray_index {i : Arg} {w : Nat} {uns : Bool} (hw : IndexArray i w uns) : indexType i.dtype = some (w, uns) ∧ i.dtype ≤ 13 ∧ i.dtype ≠ 0 := by
  have := hw.1
  cases uns <;>
  · simp only [if_true, Bool.false_eq_true, if_false, List.mem_cons, Prod.mk.injEq, List.not_mem_nil, or_false] at this
    rcases this with ⟨h, rfl⟩ | ⟨h, rfl⟩ | ⟨h, rfl⟩ | ⟨h, rfl⟩ | ⟨h, rfl⟩ <;> rw [h] <;> decide

theorem getitem_key {v i : Arg} {n k w : Nat} {sv si : Int} {item : Nat → List (BitVec 8)} {idx : Nat → BitVec (8 * w)} {uns t1 : Bool}
    (hs : Setting v i n k w sv si item idx uns t1) (D : List (BitVec 8)) (hD : v.itemsize ≤ D.length) :
    (∀ out', IntResult (readItem v.mem v.itemsize) (readIndex i.mem w) uns n k sv si v.itemsize D t1 out' →
      out' = (indexSelect item n (D.take v.itemsize) k fun j => indexValue uns (idx j)).flatten) ∧
    ¬ IntFault (readItem v.mem v.itemsize) (readIndex i.mem w) uns n k sv si v.itemsize D t1 ∧
    ∃ out', IntResult (readItem v.mem v.itemsize) (readIndex i.mem w) uns n k sv si v.itemsize D t1 out' := by
  have hI : ∀ j : Nat, j < k → readIndex i.mem w (j * si) = some (idx j).toInt := fun j hj => by
    have := hs.index.holds j hj
    rw [hs.type.2] at this
    exact readIndex_leBytes this
  have key := C31_index_partial item idx (readItem v.mem v.itemsize) (readIndex i.mem w) n k v.itemsize sv si uns
    D hs.values.holds hI (fun j hj => readItem_length (hs.values.holds j hj)) hD hs.small t1 hs.contig
  exact ⟨key.1, key.2.1, key.2.2 hs.long⟩

/-- What the call may return, by the contents of the 128 bytes of uninitialised memory. -/
theorem getitem_may {cv : Casts} {v i : Arg} {n k w : Nat} {sv si : Int} {item : Nat → List (BitVec 8)} {idx : Nat → BitVec (8 * w)} {uns t1 : Bool}
    (hs : Setting v i n k w sv si item idx uns t1) (d : Scalar) (t2 : Bool) (raw : List (BitVec 8)) (hraw : raw.length = 128)
    (hD : v.itemsize ≤ (defaultMem cv v.dtype raw d).length) :
    GetItem cv v i d true t1 t2 (.array v.dtype v.itemsize [k]
      (indexSelect item n ((defaultMem cv v.dtype raw d).take v.itemsize) k fun j => indexValue uns (idx j)).flatten) := by
  obtain ⟨hu1, hs1, hl1⟩ := oneDim_usable hs.values
  obtain ⟨hu2, hs2, hl2⟩ := oneDim_usable hs.index
  obtain ⟨hk, h13, h0⟩ := indexArray_index hs.type
  have key := getitem_key hs _ hD
  obtain ⟨out, ho⟩ := key.2.2
  have he := key.1 _ ho
  have := GetItem.ok (cv := cv) (v := v) (i := i) (d := d) (room := true) (t1 := t1) (t2 := t2) (raw := raw) (out := out) rfl h13 h0 hk hu1 hu2 hraw
    (by rw [hs1, hs2, hl1, hl2]; exact ho)
  rw [he, hl2] at this
  exact this

/-- ... and it returns nothing else. -/
theorem getitem_only {cv : Casts} {v i : Arg} {n k w : Nat} {sv si : Int} {item : Nat → List (BitVec 8)} {idx : Nat → BitVec (8 * w)} {uns t1 : Bool}
    (hs : Setting v i n k w sv si item idx uns t1) (d : Scalar) (t2 : Bool) (hD : ∀ raw, raw.length = 128 → v.itemsize ≤ (defaultMem cv v.dtype raw d).length) {o : Outcome}
    (h : GetItem cv v i d true t1 t2 o) : ∃ raw, raw.length = 128 ∧ o = .array v.dtype v.itemsize [k]
      (indexSelect item n ((defaultMem cv v.dtype raw d).take v.itemsize) k fun j => indexValue uns (idx j)).flatten := by
  obtain ⟨hu1, hs1, hl1⟩ := oneDim_usable hs.values
  obtain ⟨hu2, hs2, hl2⟩ := oneDim_usable hs.index
  obtain ⟨hk, h13, h0⟩ := indexArray_index hs.type
  cases h with
  | badType h => omega
  | mask h => exact absurd h h0
  | badShape h h0 hs => exact absurd hs (by tauto)
  | badKind h h0 hk' => rw [hk] at hk'; cases hk'
  | noMemory hm => cases hm
  | @ok _ _ raw _ hm h h0 hkk hv' hi' hraw hr =>
    rw [hk] at hkk; cases hkk
    rw [hs1, hs2, hl1, hl2] at hr
    exact ⟨raw, hraw, by rw [(getitem_key hs _ (hD raw hraw)).1 _ hr, hl2]⟩
  | @fault _ _ raw hm h h0 hkk hv' hi' hraw hr =>
    rw [hk] at hkk; cases hkk
    rw [hs1, hs2, hl1, hl2] at hr
    exact absurd hr (getitem_key hs _ (hD raw hraw)).2.1

theorem getitem_iff {cv : Casts} {v i : Arg} {n k w : Nat} {sv si : Int} {item : Nat → List (BitVec 8)} {idx : Nat → BitVec (8 * w)} {uns t1 : Bool}
    (hs : Setting v i n k w sv si item idx uns t1) (d : Scalar) (t2 : Bool) {D : List (BitVec 8)}
    (hD : ∀ raw, (defaultMem cv v.dtype raw d).take v.itemsize = D ∧ v.itemsize ≤ (defaultMem cv v.dtype raw d).length) (o : Outcome) :
    GetItem cv v i d true t1 t2 o ↔ o = .array v.dtype v.itemsize [k] (indexSelect item n D k fun j => indexValue uns (idx j)).flatten := by
  constructor
  · intro h
    obtain ⟨raw, _, h⟩ := getitem_only hs d t2 (fun raw _ => (hD raw).2) h
    rw [h, (hD raw).1]
  · rintro rfl
    have := getitem_may (cv := cv) hs d t2 (List.replicate 128 0) List.length_replicate (hD _).2
    rwa [(hD _).1] at this

/-- C74, partial (a default that the type holds; integers outside int64 for a float array, strings and byte strings excluded, see the
`_violated` theorems; threads only with contiguous values): getitem(a, idx, default) for a 1-D array of booleans, integers or floats and an index array
returns an array of the type of `a` that has, for every index, the item the index denotes, and for any other index the default (without a default: the
invalid value of the type). No access outside the arrays; every length, stride, index width and schedule. -/
theorem C74_default_partial {cv : Casts} {r : Rounding} (hc : CastsOk cv r) (v i : Arg) (t : DT) (ht : numType v.dtype = some t) (hsz : v.itemsize = t.bits / 8)
    (n k w : Nat) (sv si : Int) (item : Nat → List (BitVec 8)) (idx : Nat → BitVec (8 * w)) (uns t1 t2 : Bool) (hs : Setting v i n k w sv si item idx uns t1)
    (d : Scalar) (hd : Served t d) :
    ∃ x : BitVec t.bits, Means r t x d ∧
      ∀ o, GetItem cv v i d true t1 t2 o ↔
        o = .array v.dtype v.itemsize [k] (indexSelect item n (leBytes (t.bits / 8) x) k fun j => indexValue uns (idx j)).flatten := by
  obtain ⟨x, hx, hm⟩ := default_means hc ht hd
  exact ⟨x, hx, fun o => getitem_iff hs d t2 (by rw [hsz]; exact hm) o⟩

/-- C74, violated: a bytes or str default is not stored at all. Whatever the array's type (strings, numbers, ...), indices out of range give whatever
bytes `u` happened to be on the stack (items of up to 128 bytes). -/
theorem C74_string_default_violated (cv : Casts) (v i : Arg) (n k w : Nat) (sv si : Int) (item : Nat → List (BitVec 8)) (idx : Nat → BitVec (8 * w)) (uns t1 t2 : Bool)
    (hs : Setting v i n k w sv si item idx uns t1) (d : Scalar) (hd : (∃ s, d = .bytes s) ∨ ∃ s, d = .str s) (u : List (BitVec 8)) (hu : u.length = v.itemsize)
    (hsz : v.itemsize ≤ 128) :
    GetItem cv v i d true t1 t2 (.array v.dtype v.itemsize [k] (indexSelect item n u k fun j => indexValue uns (idx j)).flatten) := by
  have hm : ∀ raw, defaultMem cv v.dtype raw d = raw := by
    intro raw
    rcases hd with ⟨s, rfl⟩ | ⟨s, rfl⟩ <;> rfl
  have := getitem_may (cv := cv) hs d t2 (u ++ List.replicate (128 - v.itemsize) 0) (by simp [hu]; omega) (by rw [hm]; simp [hu])
  rwa [hm, List.take_left' hu] at this

/-- C74, violated: a Python integer of 2^63 or more as default of a float64 array is stored as -1.0 (below -2^63 as well). -/
theorem C74_big_int_violated {cv : Casts} {r : Rounding} (hc : CastsOk cv r) (v i : Arg) (ht : v.dtype = 12) (hsz : v.itemsize = 8)
    (n k w : Nat) (sv si : Int) (item : Nat → List (BitVec 8)) (idx : Nat → BitVec (8 * w)) (uns t1 t2 : Bool) (hs : Setting v i n k w sv si item idx uns t1)
    (z : Int) (hz : 2 ^ 63 ≤ z ∨ z < -2 ^ 63) (o : Outcome) :
    GetItem cv v i (.pyInt z) true t1 t2 o ↔
      o = .array v.dtype v.itemsize [k] (indexSelect item n (leBytes 8 (r.f64 (-1))) k fun j => indexValue uns (idx j)).flatten := by
  refine getitem_iff hs _ t2 (fun raw => ?_) o
  have hn : numType v.dtype = some .f64 := by rw [ht]; rfl
  have h1 : (pyLong z).1 = BitVec.ofInt 64 (-1) := by
    unfold pyLong
    rcases hz with h | h
    · rw [if_pos h]
    · rw [if_neg (by omega), if_pos h]
  have e : defaultMem cv v.dtype raw (.pyInt z) = set1 (r.f64 (-1)) raw := by
    show (setInt cv v.dtype (pyLong z).1 (pyLong z).2 raw).getD (sentinel v.dtype) = _
    rw [setInt_eq cv hn, Option.getD_some, h1]
    show set1 (cv.intF64 _) raw = _
    rw [hc.intF64]
    rfl
  rw [e, hsz]
  exact set1_take (w := 64) (by decide) _ _

/-- C74, violated: a numpy uint64 of 2^63 or more as default of a float64 array is stored as a negative number. -/
theorem C74_np_uint64_violated {cv : Casts} {r : Rounding} (hc : CastsOk cv r) (v i : Arg) (ht : v.dtype = 12) (hsz : v.itemsize = 8)
    (n k w : Nat) (sv si : Int) (item : Nat → List (BitVec 8)) (idx : Nat → BitVec (8 * w)) (uns t1 t2 : Bool) (hs : Setting v i n k w sv si item idx uns t1)
    (z : Int) (hz : 2 ^ 63 ≤ z) (hz' : z < 2 ^ 64) (o : Outcome) :
    GetItem cv v i (.npInt z) true t1 t2 o ↔
      o = .array v.dtype v.itemsize [k] (indexSelect item n (leBytes 8 (r.f64 (z - 2 ^ 64))) k fun j => indexValue uns (idx j)).flatten := by
  refine getitem_iff hs _ t2 (fun raw => ?_) o
  have hn : numType v.dtype = some .f64 := by rw [ht]; rfl
  have e : defaultMem cv v.dtype raw (.npInt z) = set1 (r.f64 (z - 2 ^ 64)) raw := by
    show (setInt cv v.dtype (BitVec.ofInt 64 z) (BitVec.ofInt 64 z) raw).getD (sentinel v.dtype) = _
    rw [setInt_eq cv hn, Option.getD_some]
    show set1 (cv.intF64 _) raw = _
    rw [hc.intF64, BitVec.toInt_ofInt]
    have : z.bmod (2 ^ 64) = z - 2 ^ 64 := by
      simp only [Int.bmod]
      split <;> omega
    rw [this]
  rw [e, hsz]
  exact set1_take (w := 64) (by decide) _ _

/-- C74, violated: an integer outside the range of an int32 array is neither refused nor replaced by the invalid value: it is stored modulo 2^32
(every integer of 64 bits). -/
theorem C74_wraps_violated (cv : Casts) (v i : Arg) (ht : v.dtype = 5) (hsz : v.itemsize = 4)
    (n k w : Nat) (sv si : Int) (item : Nat → List (BitVec 8)) (idx : Nat → BitVec (8 * w)) (uns t1 t2 : Bool) (hs : Setting v i n k w sv si item idx uns t1)
    (z : Int) (h1 : -2 ^ 63 ≤ z) (h2 : z < 2 ^ 63) (o : Outcome) :
    GetItem cv v i (.pyInt z) true t1 t2 o ↔
      o = .array v.dtype v.itemsize [k] (indexSelect item n (leBytes 4 (BitVec.ofInt 32 z)) k fun j => indexValue uns (idx j)).flatten := by
  refine getitem_iff hs _ t2 (fun raw => ?_) o
  have hn : numType v.dtype = some .i32 := by rw [ht]; rfl
  have e : defaultMem cv v.dtype raw (.pyInt z) = set1 (BitVec.ofInt 32 z) raw := by
    show (setInt cv v.dtype (pyLong z).1 (pyLong z).2 raw).getD (sentinel v.dtype) = _
    rw [setInt_eq cv hn, Option.getD_some, pyLong_in h1 h2]
    show set1 ((BitVec.ofInt 64 z).setWidth 32) raw = _
    congr 1
    apply BitVec.eq_of_toNat_eq
    simp only [BitVec.toNat_setWidth, BitVec.toNat_ofInt]
    omega
  rw [e, hsz]
  exact set1_take (w := 32) (by decide) _ _

/-- C74, violated: without a default, indices out of range of a float16 array give 0.0 (the low bytes of the invalid int64), not NaN. -/
theorem C74_half_violated (cv : Casts) (v i : Arg) (ht : v.dtype = 23) (hsz : v.itemsize = 2)
    (n k w : Nat) (sv si : Int) (item : Nat → List (BitVec 8)) (idx : Nat → BitVec (8 * w)) (uns t1 t2 : Bool) (hs : Setting v i n k w sv si item idx uns t1) (o : Outcome) :
    GetItem cv v i .none true t1 t2 o ↔ o = .array v.dtype v.itemsize [k] (indexSelect item n [0, 0] k fun j => indexValue uns (idx j)).flatten := by
  refine getitem_iff hs _ t2 (fun raw => ?_) o
  rw [ht, hsz]
  show (sentinel 23).take 2 = _ ∧ 2 ≤ (sentinel 23).length
  decide

/-- C74, violated: for long double and complex128 arrays, a call without default reads 16 bytes of an 8-byte variable, whatever the indices are. -/
theorem C74_wide_violated (cv : Casts) (v i : Arg) (ht : v.dtype = 13 ∨ v.dtype = 15) (hsz : v.itemsize = 16)
    (n k w : Nat) (sv si : Int) (item : Nat → List (BitVec 8)) (idx : Nat → BitVec (8 * w)) (uns t2 : Bool) (hs : Setting v i n k w sv si item idx uns false) :
    GetItem cv v i .none true false t2 .fault := by
  obtain ⟨hu1, hs1, hl1⟩ := oneDim_usable hs.values
  obtain ⟨hu2, hs2, hl2⟩ := oneDim_usable hs.index
  obtain ⟨hk, h13, h0⟩ := indexArray_index hs.type
  refine GetItem.fault (raw := List.replicate 128 0) rfl h13 h0 hk hu1 hu2 List.length_replicate ?_
  rw [hsz]
  refine C31_longdouble_default_violated _ _ _ _ _ _ _ _ ?_
  show (sentinel v.dtype).length = 8
  rcases ht with h | h <;> rw [h] <;> decide

/-- Such casts exist. -/
theorem castsOk_exists (r : Rounding) : ∃ cv, CastsOk cv r := by
  refine ⟨⟨fun b => r.f32 b.toInt, fun b => r.f64 b.toInt, r.narrow,
    fun w f => match floatValue 11 52 f with | .fin v => BitVec.ofInt w (v.tdiv (2 ^ 1074)) | _ => 0,
    fun w f => match floatValue 11 52 f with | .fin v => BitVec.ofNat w (v.tdiv (2 ^ 1074)).toNat | _ => 0⟩, fun _ => rfl, fun _ => rfl, fun _ => rfl, ?_, ?_⟩
  · intro w hw f v hv h1 h2
    simp only [hv]
    rw [BitVec.toInt_ofInt]
    have : ((2 ^ w : Nat) : Int) = 2 * 2 ^ (w - 1) := by
      obtain ⟨k, rfl⟩ : ∃ k, w = k + 1 := ⟨w - 1, by omega⟩
      push_cast; rw [pow_succ]; exact Int.mul_comm _ _
    generalize v.tdiv (2 ^ 1074) = q at *
    exact Int.bmod_eq_of_le (by omega) (by omega)
  · intro w f v hv h1 h2
    simp only [hv]
    generalize v.tdiv (2 ^ 1074) = q at *
    obtain ⟨k, rfl⟩ := Int.eq_ofNat_of_zero_le h1
    rw [Int.toNat_natCast, BitVec.toNat_ofNat, Nat.mod_eq_of_lt (by exact_mod_cast h2)]

/-- int16 array 10, 20, 30; int8 indices 1, -1, 7; default 5: the result is 20, 30, 5. -/
example (r : Rounding) (cv : Casts) (hc : CastsOk cv r) :
    let v : Arg := ⟨3, 2, [3], [2], true, false, fun p => if p = 0 then some 10 else if p = 2 then some 20 else if p = 4 then some 30 else if p = 1 ∨ p = 3 ∨ p = 5 then some 0 else none⟩
    let i : Arg := ⟨1, 1, [3], [1], true, false, fun p => if p = 0 then some 1 else if p = 1 then some 255 else if p = 2 then some 7 else none⟩
    ∀ o, GetItem cv v i (.pyInt 5) true false false o ↔ o = .array 3 2 [3] [20, 0, 30, 0, 5, 0] := by
  intro v i o
  obtain ⟨x, hx, h⟩ := C74_default_partial hc v i .i16 rfl rfl 3 3 1 2 1 (fun j => if j = 0 then [10, 0] else if j = 1 then [20, 0] else [30, 0])
    (fun j => if j = 0 then (1 : BitVec 8) else if j = 1 then 255 else 7) false false false
    { values := ⟨rfl, rfl, fun j hj => by
        have : j = 0 ∨ j = 1 ∨ j = 2 := by omega
        rcases this with rfl | rfl | rfl <;> decide⟩
      type := by unfold IndexArray; decide
      small := by simp
      index := ⟨rfl, rfl, fun j hj => by
        have : j = 0 ∨ j = 1 ∨ j = 2 := by omega
        rcases this with rfl | rfl | rfl <;> decide⟩
      contig := Or.inl rfl
      long := by simp } (.pyInt 5) ⟨by show (-2 ^ 15 : Int) ≤ 5 ∧ (5 : Int) < 2 ^ 15; decide, by simp⟩
  have hx' : x = (5 : BitVec 16) := by
    have : Value.fin (BitVec.toInt (n := 16) x) = Value.fin 5 := hx
    exact BitVec.eq_of_toInt_eq (Value.fin.inj this)
  subst hx'
  exact h o

/-- The same with uint32 indices 1, 2, 7. -/
example (r : Rounding) (cv : Casts) (hc : CastsOk cv r) :
    let v : Arg := ⟨3, 2, [3], [2], true, false, fun p => if p = 0 then some 10 else if p = 2 then some 20 else if p = 4 then some 30 else if p = 1 ∨ p = 3 ∨ p = 5 then some 0 else none⟩
    let i : Arg := ⟨6, 4, [3], [4], true, false, fun p => if p = 0 then some 1 else if p = 4 then some 2 else if p = 8 then some 7 else if 0 ≤ p ∧ p < 12 then some 0 else none⟩
    ∀ o, GetItem cv v i (.pyInt 5) true false false o ↔ o = .array 3 2 [3] [20, 0, 30, 0, 5, 0] := by
  intro v i o
  obtain ⟨x, hx, h⟩ := C74_default_partial hc v i .i16 rfl rfl 3 3 4 2 4 (fun j => if j = 0 then [10, 0] else if j = 1 then [20, 0] else [30, 0])
    (fun j => if j = 0 then (1 : BitVec 32) else if j = 1 then 2 else 7) true false false
    { values := ⟨rfl, rfl, fun j hj => by
        have : j = 0 ∨ j = 1 ∨ j = 2 := by omega
        rcases this with rfl | rfl | rfl <;> decide⟩
      type := by unfold IndexArray; decide
      small := fun _ => ⟨Or.inr (Or.inl rfl), fun j hj => by
        have : j = 0 ∨ j = 1 ∨ j = 2 := by omega
        rcases this with rfl | rfl | rfl <;> decide⟩
      index := ⟨rfl, rfl, fun j hj => by
        have : j = 0 ∨ j = 1 ∨ j = 2 := by omega
        rcases this with rfl | rfl | rfl <;> decide⟩
      contig := Or.inl rfl
      long := by simp } (.pyInt 5) ⟨by show (-2 ^ 15 : Int) ≤ 5 ∧ (5 : Int) < 2 ^ 15; decide, by simp⟩
  have hx' : x = (5 : BitVec 16) := by
    have : Value.fin (BitVec.toInt (n := 16) x) = Value.fin 5 := hx
    exact BitVec.eq_of_toInt_eq (Value.fin.inj this)
  subst hx'
  exact h o

/-- C74: getitem with an index array that is neither of booleans nor of integers (floats, complex numbers, strings, objects, records, times, ...:
type numbers from 11 on) is an error, whatever the array, the default and the threads do. -/
theorem C74_other_index_type (cv : Casts) (v i : Arg) (h : 11 ≤ i.dtype) (d : Scalar) (room t1 t2 : Bool) (o : Outcome) :
    GetItem cv v i d room t1 t2 o ↔ o = .error := by
  have hk : indexType i.dtype = none := by
    unfold indexType
    repeat rw [if_neg (by omega)]
  constructor
  · intro hg
    cases hg with
    | mask h0 => omega
    | ok _ _ _ hkk => rw [hk] at hkk; cases hkk
    | fault _ _ _ hkk => rw [hk] at hkk; cases hkk
    | _ => rfl
  · rintro rfl
    by_cases h13 : 13 < i.dtype
    · exact .badType h13
    · exact .badKind (by omega) (by omega) hk

/-- Case: a long double index (type number 13). -/
example (cv : Casts) (v : Arg) (mem : Int → Option (BitVec 8)) :=
  C74_other_index_type cv v ⟨13, 16, [4], [16], true, false, mem⟩ (by simp) .none true false false

/-! ### C75 -/

/-- The shape of `a[mask]` in numpy for `count` true elements; `none`: IndexError. -/
def maskShape (dims mdims : List Nat) (count : Nat) : Option (List Nat) :=
  if dims.take mdims.length = mdims ∧ mdims ≠ [] then some (count :: dims.drop mdims.length) else none

/-- C75: after hook_enable, an index array of any type but bool gives numpy's own result. -/
theorem C75_other_index {R : Type} (np : R → Prop) (v i : Arg) (h : i.dtype ≠ 0) (room t1 t2 : Bool) (o : Outcome ⊕ R) :
    Hook np v i room t1 t2 o ↔ ∃ r, o = .inr r ∧ np r := by
  constructor
  · intro hk
    cases hk with
    | mask h' => exact absurd h' h
    | maskFault h' => exact absurd h' h
    | maskError h' => exact absurd h' h
    | other _ hn => exact ⟨_, rfl, hn⟩
  · rintro ⟨r, rfl, hn⟩
    exact .other h hn

/-- Case: int8 indices instead of a mask. -/
example {R : Type} (np : R → Prop) (v : Arg) (o : Outcome ⊕ R) :=
  C75_other_index np v ⟨1, 1, [3], [1], true, false, fun _ => some 1⟩ (by decide) true false false o

/-- C75: a mask with another number of elements than the array gives numpy's own result (an error, if there are as many dimensions). -/
theorem C75_other_length {R : Type} (np : R → Prop) (v i : Arg) (hl : calcArrayLength i.dims ≠ calcArrayLength v.dims) (room t1 t2 : Bool) (o : Outcome ⊕ R) :
    Hook np v i room t1 t2 o ↔ ∃ r, o = .inr r ∧ np r := by
  constructor
  · intro hk
    cases hk with
    | mask _ hb => cases hb with | ok _ _ _ hl' => exact absurd hl' hl
    | maskFault _ hb => cases hb with | fault _ _ _ hl' => exact absurd hl' hl
    | maskError _ _ hn => exact ⟨_, rfl, hn⟩
    | other _ hn => exact ⟨_, rfl, hn⟩
  · rintro ⟨r, rfl, hn⟩
    by_cases h : i.dtype = 0
    · exact .maskError h (.badLength hl) hn
    · exact .other h hn

/-- Case: a mask of 2 for 3 values. -/
example {R : Type} (np : R → Prop) (o : Outcome ⊕ R) :=
  C75_other_length np ⟨3, 2, [3], [2], true, false, fun _ => some 0⟩ ⟨0, 1, [2], [1], true, false, fun _ => some 1⟩ (by decide) true false false o

/-- C75: without memory for the result, numpy's own subscript runs. -/
theorem C75_no_memory {R : Type} (np : R → Prop) (v i : Arg) (t1 t2 : Bool) (o : Outcome ⊕ R) : Hook np v i false t1 t2 o ↔ ∃ r, o = .inr r ∧ np r := by
  constructor
  · intro hk
    cases hk with
    | mask _ hb => cases hb with | ok h => cases h
    | maskFault _ hb => cases hb with | fault h => cases h
    | maskError _ _ hn => exact ⟨_, rfl, hn⟩
    | other _ hn => exact ⟨_, rfl, hn⟩
  · rintro ⟨r, rfl, hn⟩
    by_cases h : i.dtype = 0
    · exact .maskError h (.noMemory rfl) hn
    · exact .other h hn

/-- Case: every mask and every array; numpy's answer is the only one possible. -/
example (v i : Arg) : Hook (fun r : Nat => r = 5) v i false true true (.inr 5) ∧ ¬ Hook (fun r : Nat => r = 5) v i false true true (.inr 6) := by
  constructor
  · rw [C75_no_memory]; exact ⟨5, rfl, rfl⟩
  · rw [C75_no_memory]; rintro ⟨r, h1, h2⟩; subst h2; cases h1

/-- The mask and the values the hook handles right: see `C75_mask_partial`. -/
structure MaskSetting (v i : Arg) (n : Nat) (sv sb : Int) (item : Nat → List (BitVec 8)) (m : Nat → BitVec 8) (t1 t2 : Bool) : Prop where
  values : OneDim v n sv item
  bool : i.dtype = 0
  size : i.itemsize = 1
  index : OneDim i n sb fun j => [m j]
  item0 : 0 < v.itemsize
  passes : t1 = true ∨ t2 = false
  long : t1 = true ∨ t2 = true → 65536 ≤ n
  tail : (v.itemsize = 1 ∨ v.itemsize = 2 ∨ v.itemsize = 4 ∨ v.itemsize = 8) ∨ sv = v.itemsize ∨ sb ≠ 1

theorem boolIndex_iff {v i : Arg} {n : Nat} {sv sb : Int} {item : Nat → List (BitVec 8)} {m : Nat → BitVec 8} {t1 t2 : Bool}
    (hs : MaskSetting v i n sv sb item m t1 t2) (o : Outcome) :
    BoolIndex v i true t1 t2 o ↔ o = .array v.dtype v.itemsize [(maskSelect m item n).length] (maskSelect m item n).flatten := by
  have hM : ∀ j : Nat, j < n → i.mem (j * sb) = some (m j) := fun j hj => by
    have := hs.index.holds j hj
    rw [hs.size] at this
    unfold readItem at this
    rw [show List.range 1 = [0] from rfl, List.mapM_cons, List.mapM_nil] at this
    simp only [Nat.cast_zero, add_zero] at this
    cases hx : i.mem (j * sb) with
    | none => rw [hx] at this; cases this
    | some b => rw [hx] at this; have := Option.some.inj this; simp at this; rw [this]
  have hlen : ∀ j, j < n → (item j).length = v.itemsize := fun j hj => readItem_length (hs.values.holds j hj)
  have key := C30_mask_partial m item i.mem (readItem v.mem v.itemsize) n v.itemsize sb sv hM hs.values.holds hlen t1 t2 hs.passes hs.tail
  have hl1 : calcArrayLength v.dims = n := by rw [hs.values.dims]; simp [calcArrayLength]
  have hl2 : calcArrayLength i.dims = n := by rw [hs.index.dims]; simp [calcArrayLength]
  have hs1 : v.strides.getD 0 0 = sv := by rw [hs.values.strides]; rfl
  have hs2 : i.strides.getD 0 0 = sb := by rw [hs.index.strides]; rfl
  have hd1 : v.dims.length = 1 := by rw [hs.values.dims]; rfl
  have hd2 : i.dims.length = 1 := by rw [hs.index.dims]; rfl
  have hfl : (maskSelect m item n).flatten.length = (maskSelect m item n).length * v.itemsize := by
    have : ∀ l : List (List (BitVec 8)), (∀ x ∈ l, x.length = v.itemsize) → l.flatten.length = l.length * v.itemsize := by
      intro l
      induction l with
      | nil => simp
      | cons a l ih =>
        intro h
        rw [List.flatten_cons, List.length_append, ih fun x hx => h x (by simp [hx]), h a (by simp), List.length_cons, Nat.add_mul]; omega
    apply this
    intro x hx
    obtain ⟨j, hj, rfl⟩ := List.mem_map.1 hx
    exact hlen j (List.mem_range.1 (List.mem_of_mem_filter hj))
  constructor
  · intro h
    cases h with
    | badIndex h => exact absurd hd2 h.1
    | badValues h => exact absurd hd1 h.1
    | badLength h => exact absurd (hl2.trans hl1.symm) h
    | noMemory h => cases h
    | @ok total out hm hi hv hl h ht =>
      rw [hl1, hs1, hs2] at h
      have he := key.1 _ h
      subst he
      rw [hfl] at ht
      have := Nat.eq_of_mul_eq_mul_right hs.item0 ht
      rw [this]
    | fault hm hi hv hl hr h =>
      rw [hl1] at hr
      rw [hl1, hs1, hs2] at h
      exact absurd h (key.2.1 _ _ hr)
  · rintro rfl
    obtain ⟨out, ho⟩ := key.2.2 hs.long
    have he := key.1 _ ho
    subst he
    exact BoolIndex.ok rfl (Or.inl hd2) (Or.inl hd1) (hl2.trans hl1.symm) (by rw [hl1, hs1, hs2]; exact ho) hfl

/-- C75, partial (1-D array and mask of one length; not the states of C30's `_violated` theorems): a[mask] after hook_enable is a new 1-D array with the items of
`a` at the true elements of the mask, in order. Any item size, stride, schedule. -/
theorem C75_mask_partial {R : Type} (np : R → Prop) (v i : Arg) (n : Nat) (sv sb : Int) (item : Nat → List (BitVec 8)) (m : Nat → BitVec 8) (t1 t2 : Bool)
    (hs : MaskSetting v i n sv sb item m t1 t2) (o : Outcome ⊕ R) :
    maskShape v.dims i.dims (maskSelect m item n).length = some [(maskSelect m item n).length] ∧
    (Hook np v i true t1 t2 o ↔ o = .inl (.array v.dtype v.itemsize [(maskSelect m item n).length] (maskSelect m item n).flatten)) := by
  refine ⟨?_, ?_⟩
  · rw [hs.values.dims, hs.index.dims]; simp [maskShape]
  constructor
  · intro hk
    cases hk with
    | mask _ hb => rw [(boolIndex_iff hs _).1 hb]
    | maskFault _ hb => cases (boolIndex_iff hs _).1 hb
    | maskError _ hb => cases (boolIndex_iff hs _).1 hb
    | other h => exact absurd hs.bool h
  · rintro rfl
    exact .mask hs.bool ((boolIndex_iff hs _).2 rfl)

/-- int16 array 10, 20, 30; mask True, False, True: the result is 10, 30. -/
example {R : Type} (np : R → Prop) :
    let v : Arg := ⟨3, 2, [3], [2], true, false, fun p => if p = 0 then some 10 else if p = 2 then some 20 else if p = 4 then some 30 else if p = 1 ∨ p = 3 ∨ p = 5 then some 0 else none⟩
    let i : Arg := ⟨0, 1, [3], [1], true, false, fun p => if p = 0 ∨ p = 2 then some 1 else if p = 1 then some 0 else none⟩
    ∀ o, Hook np v i true false false o ↔ o = .inl (.array 3 2 [2] [10, 0, 30, 0]) := by
  intro v i o
  refine (C75_mask_partial np v i 3 2 1 (fun j => if j = 0 then [10, 0] else if j = 1 then [20, 0] else [30, 0]) (fun j => if j = 1 then 0 else 1) false false ?_ o).2
  refine { values := ⟨rfl, rfl, fun j hj => ?_⟩, bool := rfl, size := rfl, index := ⟨rfl, rfl, fun j hj => ?_⟩, item0 := by decide, passes := Or.inr rfl, long := by simp, tail := by decide }
  · have : j = 0 ∨ j = 1 ∨ j = 2 := by omega
    rcases this with rfl | rfl | rfl <;> decide
  · have : j = 0 ∨ j = 1 ∨ j = 2 := by omega
    rcases this with rfl | rfl | rfl <;> decide

/-- C75, violated: a 2-D C-contiguous array indexed by a C-contiguous mask of its own shape (a[a > 0]): for at least two rows and two columns, memory outside the
mask is read. -/
theorem C75_two_dim_violated {R : Type} (np : R → Prop) (v i : Arg) (r c : Nat) (hr : 2 ≤ r) (hc : 2 ≤ c) (hv : v.dims = [r, c]) (hvc : v.contig = true)
    (hi : i.dims = [r, c]) (his : i.strides = [(c : Int), 1]) (hic : i.contig = true) (hib : i.dtype = 0)
    (mask : List (BitVec 8)) (hm : mask.length = r * c) (hmem : i.mem = fun p => if 0 ≤ p then mask[p.toNat]? else none) :
    Hook np v i true false false (.inl .fault) := by
  have hl1 : calcArrayLength v.dims = r * c := by rw [hv]; simp [calcArrayLength]
  have hl2 : calcArrayLength i.dims = r * c := by rw [hi]; simp [calcArrayLength]
  refine .maskFault hib (BoolIndex.fault (raw := List.replicate ((max (r * c) 1 + 16383) / 16384) 0) (out := []) rfl (Or.inr hic) (Or.inr hvc) (hl2.trans hl1.symm) (by rw [hl1, List.length_replicate]) ?_)
  rw [hl1, hmem, his]
  exact C30_two_dim_violated r c hr hc mask hm _ _ _ _ _

/-- C75, violated: a 2-D C-contiguous array of `r` rows and `c ≥ 2` columns indexed by a 1-D mask of `r * c` elements is an IndexError in numpy. After hook_enable, an
all-false mask gives an empty array instead (and a true element at a position past the rows a read outside the array). -/
theorem C75_shape_violated {R : Type} (np : R → Prop) (v i : Arg) (r c : Nat) (hr : 1 ≤ r) (hc : 2 ≤ c) (hv : v.dims = [r, c]) (hvc : v.contig = true)
    (hi : i.dims = [r * c]) (his : i.strides = [1]) (hib : i.dtype = 0) (hmem : ∀ j : Nat, j < r * c → i.mem j = some 0) :
    (∀ count, maskShape v.dims i.dims count = none) ∧ Hook np v i true false false (.inl (.array v.dtype v.itemsize [0] [])) := by
  have hl1 : calcArrayLength v.dims = r * c := by rw [hv]; simp [calcArrayLength]
  have hl2 : calcArrayLength i.dims = r * c := by rw [hi]; simp [calcArrayLength]
  constructor
  · intro count
    unfold maskShape
    rw [hv, hi, if_neg]
    rintro ⟨h, -⟩
    have h' : r = r * c := List.head_eq_of_cons_eq h
    have := Nat.mul_le_mul_left r hc
    omega
  · refine .mask hib (BoolIndex.ok rfl (Or.inl (by rw [hi]; rfl)) (Or.inr hvc) (hl2.trans hl1.symm) ?_ (by simp))
    rw [hl1, his]
    have hM : ∀ j : Nat, j < r * c → i.mem (j * 1) = some ((fun _ => 0 : Nat → BitVec 8) j) := fun j hj => by rw [Int.mul_one]; exact hmem j hj
    obtain ⟨offs, h1, _⟩ := boolOffsets_ok (m := fun _ => 0) (n := r * c) (sb := 1) hM (t1 := false) .serial
      (raw := List.replicate ((max (r * c) 1 + 16383) / 16384) 0) (by simp)
    have h0 : cnt (fun _ => (0 : BitVec 8)) 0 (r * c) = 0 := by
      unfold cnt; rw [List.countP_eq_zero]; intro a _; simp
    rw [h0] at h1
    exact ⟨_, _, _, _, 0, [], .serial, .serial, List.length_replicate, h1, by simp, by rw [if_pos rfl]⟩

/-- C75, violated: a one-column array (n, 1) indexed by a 1-D mask has shape (count, 1) in numpy; after hook_enable, the result is 1-D. -/
theorem C75_column_violated {R : Type} (np : R → Prop) (v i : Arg) (n : Nat) (isz : Nat) (h0 : 0 < isz) (item : Nat → List (BitVec 8)) (m : Nat → BitVec 8)
    (hv : v.dims = [n, 1]) (hvs : v.strides = [(isz : Int), (isz : Int)]) (hsz : v.itemsize = isz) (hvc : v.contig = true)
    (hitem : ∀ j : Nat, j < n → readItem v.mem isz (j * (isz : Int)) = some (item j))
    (hi : i.dims = [n]) (his : i.strides = [1]) (hib : i.dtype = 0) (hmem : ∀ j : Nat, j < n → i.mem j = some (m j)) :
    (∀ count, maskShape v.dims i.dims count = some [count, 1]) ∧
    Hook np v i true false false (.inl (.array v.dtype isz [(maskSelect m item n).length] (maskSelect m item n).flatten)) := by
  constructor
  · intro count; rw [hv, hi]; simp [maskShape]
  let v' : Arg := { v with dims := [n], strides := [(isz : Int)], itemsize := isz }
  let i' : Arg := { i with itemsize := 1 }
  have hs : MaskSetting v' i' n isz 1 item m false false :=
    { values := ⟨rfl, rfl, hitem⟩, bool := hib, size := rfl, item0 := h0, passes := Or.inr rfl, long := by simp
      tail := Or.inr (Or.inl rfl)
      index := ⟨hi, his, fun j hj => by
        show readItem i.mem 1 _ = _
        unfold readItem
        rw [show List.range 1 = [0] from rfl, List.mapM_cons, List.mapM_nil, Int.mul_one]
        simp only [Nat.cast_zero, add_zero]
        rw [hmem j hj]; rfl⟩ }
  have hb := (boolIndex_iff hs _).2 rfl
  refine .mask hib ?_
  cases hb with
  | ok hm hi' hv' hl h ht =>
    have e1 : calcArrayLength v'.dims = n := by show calcArrayLength [n] = n; simp [calcArrayLength]
    have e2 : calcArrayLength v.dims = n := by rw [hv]; simp [calcArrayLength]
    rw [e1] at h
    have := BoolIndex.ok (v := v) (i := i) (t1 := false) (t2 := false) rfl hi' (Or.inr hvc) (by rw [e2, hi]; simp [calcArrayLength]) (total := (maskSelect m item n).length)
      (out := (maskSelect m item n).flatten) (by rw [e2, hvs, hsz]; exact h) (by rw [hsz]; exact ht)
    rw [hsz] at this
    exact this

/-- C75, violated: an array whose byte order is not the native one gives its bytes in an array of native byte order: the int16 element 1 comes back as 256. -/
theorem C75_byte_order_violated {R : Type} (np : R → Prop) :
    let v : Arg := ⟨3, 2, [1], [2], true, true, fun p => if p = 0 then some 0 else if p = 1 then some 1 else none⟩
    let i : Arg := ⟨0, 1, [1], [1], true, false, fun p => if p = 0 then some 1 else none⟩
    (∀ o, Hook np v i true false false o ↔ o = .inl (.array 3 2 [1] [0, 1])) ∧ leBytes 2 (256 : BitVec 16) = [0, 1] ∧ (leBytes 2 (1 : BitVec 16)).reverse = [0, 1] := by
  refine ⟨fun o => ?_, by decide, by decide⟩
  refine (C75_mask_partial np _ _ 1 2 1 (fun _ => [0, 1]) (fun _ => 1) false false ?_ o).2
  refine { values := ⟨rfl, rfl, fun j hj => ?_⟩, bool := rfl, size := rfl, index := ⟨rfl, rfl, fun j hj => ?_⟩, item0 := by decide, passes := Or.inr rfl, long := by simp, tail := by decide }
  · obtain rfl : j = 0 := by omega
    decide
  · obtain rfl : j = 0 := by omega
    decide

/-- C75, violated: the items of an object array are copied without counting the new references. Once the result is freed, an object that only `a` refers to has no
reference left - it is destroyed - although it still is an item of `a`. -/
theorem C75_object_violated (refs : BitVec 64 → Int) (m : Nat → BitVec 8) (item : Nat → BitVec 64) (n j : Nat) (hj : j < n) (hm : m j ≠ 0) (h1 : refs (item j) = 1) :
    refsAfterFree (refsAfterMask refs (maskSelect m item n)) (maskSelect m item n) (item j) ≤ 0 := by
  have hmem : item j ∈ maskSelect m item n := by
    unfold maskSelect
    exact List.mem_map.2 ⟨j, List.mem_filter.2 ⟨List.mem_range.2 hj, by simpa using hm⟩, rfl⟩
  have := List.count_pos_iff.2 hmem
  unfold refsAfterFree refsAfterMask
  omega

end Pnumpy.GetItem
