import Verif.Props.SortHooks
import Verif.Props.LexShort
/-
Property theorems C68, C71: stable np.argsort and np.lexsort of at most 15 floats, NaNs included, with pnumpy's hooks installed.
-/
namespace Pnumpy.Props
open Spec Pnumpy.Sort Pnumpy.ParSort Pnumpy.SortApi Pnumpy.Lex Pnumpy.SortHooks

theorem pass_stable_short {t : DT} {v : List (BitVec t.bits)} {n : Nat} (hl : v.length = n) (hb : ProperBools t v)
    {ix0 ix : List Nat} (h0 : ∀ i ∈ ix0, i < n) (hl0 : ix0.length ≤ 15) (hp : Pass .merge (.num t v) ix0 ix) :
    IsStableReorder (Col.num t v).before ix0 ix := by
  subst hl
  exact SS_refines_proper (c := .num t v) hb h0 (pass_short (c := .num t v) hb h0 hl0 hp)

theorem argStub_stable_short {np} (hnp : NumpyArgsorts np) {e : Env} {a : Arr} {t : DT} (ht : a.HasType t) {p s : Int} {n : Nat}
    (hb : ProperBools t (a.lane t p s n)) {ix0 ix : List Nat} (h0 : ∀ i ∈ ix0, i < n) (hl0 : ix0.length ≤ 15)
    (h : ArgLane np e a .merge p s n ix0 ix) : IsStableReorder (Col.num t (a.lane t p s n)).before ix0 ix := by
  obtain ⟨atype, ct, ha, hct, hs⟩ := h
  have hty := stub_type ht ha
  obtain rfl : ct = .num t := by rw [ht.2.1] at hct; exact (Option.some.inj hct).symm
  have hcore : ∀ ix, ArgStub np e.atop a.dtype atype (.num t) a.itemsize .merge (laneData e.aligned a p s) n false ix0 ix →
      IsStableReorder (Col.num t (a.lane t p s n)).before ix0 ix := by
    intro ix hs
    cases hs with
    | served h hc hp =>
      rw [hty.1] at hc; cases hc
      rw [lane_column ht] at hp
      exact pass_stable_short (lane_length ..) hb h0 hl0 hp
    | failed h hn =>
      rw [lane_column ht] at hn
      exact hnp.stable _ _ _ hn
    | punted h hn =>
      rw [lane_column ht] at hn
      exact hnp.stable _ _ _ hn
  cases hled : e.ledger with
  | false => rw [hled] at hs; exact hcore ix hs
  | true =>
    rw [hled] at hs
    cases hs with
    | ledgered h => exact hcore ix h

/-- **C68 (part)**: the stable np.argsort of a line of at most 15 elements of any hooked type, NaNs included: a stable argsort, NaNs last.
(With 16 elements: C68_nan_violated.) -/
theorem C68_short_partial {np} (hnp : NumpyArgsorts np) (e : Env) (a : Arr) (t : DT) (ht : a.HasType t) (p s : Int) (n : Nat)
    (hn : n ≤ 15) (hb : ProperBools t (a.lane t p s n)) (ix : List Nat) (h : NpArgsort np e a .merge p s n ix) :
    IsStableArgsort (before t) (keyOf (a.lane t p s n)) n ix := by
  unfold NpArgsort at h
  split at h
  · next h2 => subst h; exact isArgsort_trivial _ _ h2
  · exact stableArgsort_of (argStub_stable_short hnp ht hb (fun i hi => List.mem_range.1 hi) (by simpa using hn) h)

/-- A key that pnumpy's stable argsort handles well: no hook, or no NaN, or at most 15 rows; booleans stored as 0 or 1. -/
def _root_.Pnumpy.SortHooks.LexKey.Handled (n : Nat) : LexKey → Prop
  | .hooked _ a p s => ∃ t, a.HasType t ∧ ProperBools t (a.lane t p s n) ∧ (n ≤ 15 ∨ ∀ x ∈ a.lane t p s n, value t x ≠ .nan)
  | .other _ => True

theorem lexStep_handled {np} (hnp : NumpyArgsorts np) {n : Nat} (hn : n < 2 ^ 63) {key : LexKey} (hk : key.Handled n) {ix0 ix : List Nat}
    (h0 : ∀ i ∈ ix0, i < n) (hl0 : ix0.length = n) (h : LexStep np n key ix0 ix) : IsStableReorder (key.before n) ix0 ix := by
  cases key with
  | hooked e a p s =>
    obtain ⟨t, ht, hb, hx⟩ := hk
    rcases hx with h15 | hx
    · have := argStub_stable_short hnp ht hb h0 (by omega) h
      have e : (LexKey.hooked e a p s).before n = (Col.num t (a.lane t p s n)).before := by
        funext i j
        apply propext
        constructor
        · rintro ⟨t', ht', h⟩
          obtain rfl := hasType_unique ht ht'
          exact h
        · exact fun h => ⟨t, ht, h⟩
      rw [e]; exact this
    · exact lexStep_stable hnp hn (key := .hooked e a p s) ⟨t, ht, hb, hx⟩ h0 (by omega) h
  | other b => exact lexStep_stable hnp hn (key := .other b) trivial h0 (by omega) h

theorem lexSteps_handled {np} (hnp : NumpyArgsorts np) {n : Nat} (hn : n < 2 ^ 63) : ∀ {keys : List LexKey} {ix0 ix : List Nat},
    (∀ key ∈ keys, LexKey.Handled n key) → (∀ i ∈ ix0, i < n) → ix0.length = n → LexSteps np n keys ix0 ix →
    IsStableReorder (RowBefore (keys.map (LexKey.before n))) ix0 ix := by
  intro keys
  induction keys with
  | nil =>
    intro ix0 ix _ _ _ h
    cases h
    exact ⟨List.Perm.refl _, fun R hR => hR.imp fun h => ⟨id, fun _ => h⟩⟩
  | cons key keys ih =>
    intro ix0 ix hk h0 hl0 h
    cases h with
    | @cons _ _ _ ix1 _ h hs =>
      obtain ⟨p1, p2⟩ := lexStep_handled hnp hn (hk key (by simp)) h0 hl0 h
      obtain ⟨q1, q2⟩ := ih (fun k hk' => hk k (by simp [hk'])) (fun i hi => h0 i (p1.mem_iff.1 hi)) (by rw [p1.length_eq]; exact hl0) hs
      refine ⟨q1.trans p1, fun R hR => (q2 _ (p2 R hR)).imp fun {i j} h => ?_⟩
      simp only [List.map_cons, RowBefore]
      obtain ⟨h1, h2⟩ := h
      refine ⟨fun hx => ?_, fun hx => ?_⟩
      · rcases hx with hx | ⟨hx, hk⟩
        · exact h1 hx
        · exact (h2 hx).1 hk
      · have h3 : ¬ RowBefore (keys.map (LexKey.before n)) i j := fun h => hx (Or.inl h)
        exact (h2 h3).2 fun hk => hx (Or.inr ⟨h1, hk⟩)

/-- **C71 (part)**: np.lexsort with the hooks installed, for any number of keys each of which is of a type pnumpy does not hook, or free of NaN,
or has at most 15 rows: the stable order of the rows, last key first, NaNs last. -/
theorem C71_short_partial {np} (hnp : NumpyArgsorts np) (n : Nat) (hn : n < 2 ^ 63) (keys : List LexKey) (hk : ∀ key ∈ keys, LexKey.Handled n key)
    (ix : List Nat) (h : NpLexsort np n keys ix) : IsStableArgsort (RowBefore (keys.map (LexKey.before n))) id n ix := by
  have := lexSteps_handled hnp hn hk (fun i hi => List.mem_range.1 hi) (by simp) h
  exact ⟨this.1, this.2 (· < ·) List.pairwise_lt_range⟩

/-- Case: the float64 numbers NaN, 1.0, alone and as a key. -/
def nanFirst : List (BitVec DT.f64.bits) := [0x7ff8000000000000#64, 0x3ff0000000000000#64]

example : ∃ ix, NpArgsort (fun _ _ _ _ => False) ⟨false, true, true, false⟩ (arrayOf 12 nanFirst) .merge 0 8 2 ix ∧
    IsStableArgsort (before .f64) (keyOf ((arrayOf 12 nanFirst).lane .f64 0 8 2)) 2 ix ∧
    NpLexsort (fun _ _ _ _ => False) 2 [.hooked ⟨false, true, true, false⟩ (arrayOf 12 nanFirst) 0 8] ix ∧
    IsStableArgsort (RowBefore [(LexKey.hooked ⟨false, true, true, false⟩ (arrayOf 12 nanFirst) 0 8).before 2]) id 2 ix := by
  have ht : (arrayOf 12 nanFirst).HasType .f64 := ⟨by decide, rfl, rfl⟩
  obtain ⟨ix, h⟩ := C67_served ⟨false, true, true, false⟩ rfl _ .f64 ht .merge (Or.inr (by decide)) 0 8 2 (by decide)
  have hl : NpLexsort (fun _ _ _ _ => False) 2 [.hooked ⟨false, true, true, false⟩ (arrayOf 12 nanFirst) 0 8] ix := by
    have h' := h
    unfold NpArgsort at h'
    rw [if_neg (by decide)] at h'
    exact .cons h' (.nil _)
  exact ⟨ix, h, C68_short_partial numpyArgsorts_nothing _ _ .f64 ht 0 8 2 (by decide) (fun h => nomatch h) ix h, hl,
    C71_short_partial numpyArgsorts_nothing 2 (by decide) _ (fun key hk => by
      rw [List.mem_singleton.1 hk]
      exact ⟨.f64, ht, (fun h => nomatch h), Or.inl (by decide)⟩) ix hl⟩

end Pnumpy.Props
