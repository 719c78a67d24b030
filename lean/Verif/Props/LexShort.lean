import Verif.Spec.LexShort
import Verif.Props.LexSort
/-
Property theorem C24: few rows with NaNs, and float16 keys.
-/
namespace Pnumpy.Props
open Spec Pnumpy.Sort Pnumpy.ParSort Pnumpy.Str Pnumpy.Lex

theorem good_proper {c : Col} (h : c.Good) : c.Proper := by
  cases c with
  | num t v => exact h.1
  | str u len v => exact h
  | half v => exact h

theorem colLt_proper {c : Col} (hg : c.Proper) {i j : Nat} (hi : i < c.rows) (hj : j < c.rows) :
    colLt c i j = true ↔ c.before i j := by
  cases c with
  | num t v => exact keyLt_iff v hg i j
  | str u len v => exact keyLt_lex v hg hi hj
  | half v => exact absurd hg id

theorem SS_refines_proper {c : Col} (hg : c.Proper) {ix' ix : List Nat} (hix : ∀ i ∈ ix, i < c.rows) (hs : SS (colLt c) ix' ix) :
    Refines c ix' ix := by
  refine ⟨hs.perm, fun R hR => ?_⟩
  refine List.Pairwise.imp_of_mem (fun {i j} hi hj h => ?_) (SS_refine (colLt_swo c) hs hR)
  have hi' := hix i (hs.perm.mem_iff.1 hi)
  have hj' := hix j (hs.perm.mem_iff.1 hj)
  rw [Bool.eq_false_iff, ne_eq, Bool.eq_false_iff, ne_eq, colLt_proper hg hi' hj', colLt_proper hg hj' hi'] at h
  exact h

theorem passSerial_short {c : Col} (hg : c.Proper) (ix w : List Nat) (hix : ∀ i ∈ ix, i < c.rows) (hn : ix.length ≤ 15)
    (hw : w.length = ix.length / 2) : ∃ ix', passSerial .merge c ix w = some ix' ∧ SS (colLt c) ix' ix := by
  cases c with
  | num t v =>
    obtain ⟨S', h1, h2⟩ := ams0_short (opsArg_ok t) v [] ix [] w hn hix
    refine ⟨S', ?_, h1⟩
    simp only [List.nil_append, List.append_nil, List.length_nil, Nat.zero_add] at h2
    show (argsortFn (opsArg t) .merge v ix w 0 ix.length 0).map _ = _
    simp [argsortFn, h2]
  | str u len v => exact passSerial_ok (c := .str u len v) hg ix w hix (by omega) hw
  | half v => exact absurd hg id

theorem pass_short {c : Col} (hg : c.Proper) {ix ix' : List Nat} (hix : ∀ i ∈ ix, i < c.rows) (hn : ix.length ≤ 15)
    (hp : Pass .merge c ix ix') : SS (colLt c) ix' ix := by
  cases hp with
  | serial c ix ix' w hw h =>
    obtain ⟨b, h1, h2⟩ := passSerial_short hg ix w hix hn hw
    rw [h] at h1; obtain rfl := Option.some.inj h1
    exact h2
  | threaded t v ix w s hl hw h h8 => omega
  | threadedStr u len v ix w s hl hw h h8 => omega

/-- A column lexsort handles well, or does not handle at all. -/
def ColFits (n : Nat) (c : Col) : Prop := c.rows = n ∧ (c.Good ∨ c.isHalf = true ∨ (c.Proper ∧ n ≤ 15))

theorem fits_pass {c : Col} {n : Nat} (hc : ColFits n c) {ix ix' : List Nat} (hix : ∀ i ∈ ix, i < n) (hl : ix.length = n) (hn : n < 2 ^ 63)
    (hstr : Col.isStr c → n < 65536) (hp : Pass .merge c ix ix') : (c.isHalf = true ∧ ix' = ix) ∨ (c.isHalf = false ∧ Refines c ix' ix) := by
  obtain ⟨hr, hc⟩ := hc
  cases hh : c.isHalf with
  | true =>
    refine Or.inl ⟨rfl, ?_⟩
    cases hp with
    | serial c ix ix' w hw h =>
      cases c with
      | half v => exact (Option.some.inj h).symm
      | num t v => cases hh
      | str u len v => cases hh
    | threaded t v ix w s hl hw h h8 => cases hh
    | threadedStr u len v ix w s hl hw h h8 => cases hh
  | false =>
    refine Or.inr ⟨rfl, ?_⟩
    rcases hc with hg | hg | ⟨hg, h15⟩
    · exact SS_refines hg (by rw [hr]; exact hix) (pass_SS hg (by rw [hr]; exact hix) (by omega) (fun h => by rw [hl]; exact hstr h) hp)
    · rw [hh] at hg; cases hg
    · exact SS_refines_proper hg (by rw [hr]; exact hix) (pass_short hg (by rw [hr]; exact hix) (by omega) hp)

theorem fits_order {cs : List Col} : ∀ {ix ix' : List Nat} {n : Nat}, (∀ c ∈ cs, ColFits n c) → (∀ i ∈ ix, i < n) →
    ix.length = n → n < 2 ^ 63 → ((∃ c ∈ cs, Col.isStr c) → n < 65536) → Passes .merge cs ix ix' →
    ix'.Perm ix ∧ ∀ R : Nat → Nat → Prop, ix.Pairwise R →
      ix'.Pairwise fun i j => ¬ RowBefore ((cs.filter fun c => !c.isHalf).map Col.before) j i ∧
        (¬ RowBefore ((cs.filter fun c => !c.isHalf).map Col.before) i j → R i j) := by
  induction cs with
  | nil =>
    intro ix ix' n hc hix hl hn hs hp
    cases hp
    exact ⟨List.Perm.refl _, fun R hR => hR.imp fun h => ⟨id, fun _ => h⟩⟩
  | cons c cs ih =>
    intro ix ix'' n hc hix hl hn hs hp
    cases hp with
    | @cons _ _ _ ix' _ h hps =>
      have hrest := fun (ix' : List Nat) h1 h2 hps => ih (ix := ix') (ix' := ix'') (n := n) (fun c' hc' => hc c' (by simp [hc'])) h1 h2 hn
        (fun ⟨c', h1, h2⟩ => hs ⟨c', by simp [h1], h2⟩) hps
      rcases fits_pass (hc c (by simp)) hix hl hn (fun hi => hs ⟨c, by simp, hi⟩) h with ⟨hh, rfl⟩ | ⟨hh, p1, p2⟩
      · rw [List.filter_cons_of_neg (by simp [hh])]
        exact hrest _ hix hl hps
      · rw [List.filter_cons_of_pos (by simp [hh])]
        obtain ⟨q1, q2⟩ := hrest ix' (fun i hi => hix i (p1.mem_iff.1 hi)) (by rw [p1.length_eq]; exact hl) hps
        refine ⟨q1.trans p1, fun R hR => (q2 _ (p2 R hR)).imp fun {i j} h => ?_⟩
        simp only [List.map_cons, RowBefore]
        obtain ⟨h1, h2⟩ := h
        refine ⟨fun hx => ?_, fun hx => ?_⟩
        · rcases hx with hx | ⟨hx, hk⟩
          · exact h1 hx
          · exact (h2 hx).1 hk
        · have h3 : ¬ RowBefore ((cs.filter fun c => !c.isHalf).map Col.before) i j := fun h => hx (Or.inl h)
          exact (h2 h3).2 fun hk => hx (Or.inr ⟨h1, hk⟩)

theorem fits_exist {cs : List Col} : ∀ {ix : List Nat} {n : Nat}, (∀ c ∈ cs, ColFits n c) → (∀ i ∈ ix, i < n) →
    ix.length = n → n < 2 ^ 63 → ∃ ix', Passes .merge cs ix ix' := by
  induction cs with
  | nil => intro ix n _ _ _ _; exact ⟨ix, .nil ix⟩
  | cons c cs ih =>
    intro ix n hc hix hl hn
    obtain ⟨hr, hg⟩ := hc c (by simp)
    have : ∃ ix', passSerial .merge c ix (List.replicate (ix.length / 2) 0) = some ix' ∧ ix'.Perm ix := by
      rcases hg with hg | hg | ⟨hg, h15⟩
      · obtain ⟨ix', h1, h2⟩ := passSerial_ok hg ix (List.replicate (ix.length / 2) 0) (by rw [hr]; exact hix) (by omega) (by simp)
        exact ⟨ix', h1, h2.perm⟩
      · cases c with
        | half v => exact ⟨ix, rfl, List.Perm.refl _⟩
        | num t v => cases hg
        | str u len v => cases hg
      · obtain ⟨ix', h1, h2⟩ := passSerial_short hg ix (List.replicate (ix.length / 2) 0) (by rw [hr]; exact hix) (by omega) (by simp)
        exact ⟨ix', h1, h2.perm⟩
    obtain ⟨ix', h1, h2⟩ := this
    obtain ⟨ix'', h3⟩ := ih (ix := ix') (n := n) (fun c' hc' => hc c' (by simp [hc'])) (fun i hi => hix i (h2.mem_iff.1 hi))
      (by rw [h2.length_eq]; exact hl) hn
    exact ⟨ix'', .cons (.serial c ix ix' _ (by simp) h1) h3⟩

/-- **C24 (part)**: lexsort (merge kind, any number of keys and rows, every schedule; strings below 65536 rows) of keys that are free of NaN, or
hold NaNs but have at most 15 rows, or are float16: the result is the stable order of the rows by the keys other than the float16 ones, last
key first, NaNs last; the float16 keys have no effect at all. -/
theorem C24_ignores_half_partial (cs : List Col) (n : Nat)
    (hc : ∀ c ∈ cs, c.rows = n ∧ (c.Good ∨ c.isHalf = true ∨ (c.Proper ∧ n ≤ 15))) (hn : n < 2 ^ 63)
    (hs : (∃ c ∈ cs, Col.isStr c) → n < 65536) :
    (∃ ix, LexRun .merge cs n ix) ∧
    ∀ ix, LexRun .merge cs n ix → IsStableArgsort (RowBefore ((cs.filter fun c => !c.isHalf).map Col.before)) id n ix := by
  constructor
  · exact fits_exist hc (fun i hi => List.mem_range.1 hi) (by simp) hn
  · intro ix h
    obtain ⟨h1, h2⟩ := fits_order hc (fun i hi => List.mem_range.1 hi) (by simp) hn hs h
    exact ⟨h1, h2 (· < ·) List.pairwise_lt_range⟩

/-- Three rows: a float64 key 1.0, NaN, 1.0, a float16 key. -/
def nanRows : List Col := [.num .f64 [0x3ff0000000000000#64, 0x7ff8000000000000#64, 0x3ff0000000000000#64], .half [0x3c00#16, 0xbc00#16, 0#16]]

example : ∃ ix, LexRun .merge nanRows 3 ix ∧ IsStableArgsort (RowBefore ((nanRows.take 1).map Col.before)) id 3 ix := by
  obtain ⟨⟨ix, h⟩, h2⟩ := C24_ignores_half_partial nanRows 3 (by
    intro c hc
    simp only [nanRows, List.mem_cons, List.not_mem_nil, or_false] at hc
    rcases hc with rfl | rfl
    · exact ⟨rfl, Or.inr (Or.inr ⟨(fun h => nomatch h), by decide⟩)⟩
    · exact ⟨rfl, Or.inr (Or.inl rfl)⟩) (by decide) (fun _ => by decide)
  exact ⟨ix, h, h2 ix h⟩

end Pnumpy.Props
