import Verif.Proofs.RecArray
import Verif.Props.Work
/-
Property theorems C32, C33: recarray_to_colmajor.
-/
namespace Pnumpy.Props
open Spec Pnumpy.RecArray

variable {β : Type}

/-- The calls cover every row, each call a range of rows. -/
theorem rec_calls {rows : Nat} {calls : List (Nat × Nat)} (h : Calls rows calls) :
    (∀ c ∈ calls, c.1 ≤ c.2 ∧ c.2 ≤ rows) ∧ ∀ r, r < rows → ∃ c ∈ calls, c.1 ≤ r ∧ r < c.2 := by
  have hb : ∀ b, b < (rows + 16383) / 16384 → (rowBlock rows b).1 ≤ (rowBlock rows b).2 ∧ (rowBlock rows b).2 ≤ rows := by
    intro b hb; unfold rowBlock; simp only; split <;> omega
  have hcov : ∀ r, r < rows → (rowBlock rows (r / 16384)).1 ≤ r ∧ r < (rowBlock rows (r / 16384)).2 := by
    intro r hr; unfold rowBlock; simp only; split <;> omega
  cases h with
  | small h => exact ⟨by simp, fun r hr => ⟨(0, rows), List.mem_singleton.2 rfl, Nat.zero_le _, hr⟩⟩
  | unthreaded h =>
    refine ⟨fun c hc => ?_, fun r hr => ⟨_, List.mem_map.2 ⟨r / 16384, List.mem_range.2 (by omega), rfl⟩, hcov r hr⟩⟩
    obtain ⟨b, hb', rfl⟩ := List.mem_map.1 hc
    exact hb b (List.mem_range.1 hb')
  | threaded wakeup sched hn hret =>
    have hperm := (C04_tasks_exactly_once _ sched).2.2 hret
    refine ⟨fun c hc => ?_, fun r hr => ⟨_, List.mem_map.2 ⟨r / 16384, hperm.mem_iff.2 (List.mem_range.2 (show r / 16384 < (rows + 16383) / 16384 by omega)), rfl⟩, hcov r hr⟩⟩
    obtain ⟨b, hb', rfl⟩ := List.mem_map.1 hc
    exact hb b (List.mem_range.1 (hperm.mem_iff.1 hb'))

theorem rec_all {rec : List β} {isz chunk rows : Nat} {cols : List Col} (hrec : rows * isz ≤ rec.length) (hv : Valid isz cols) (hne : cols ≠ [])
    (hc : chunkRows isz = some chunk) : ∀ (calls : List (Nat × Nat)), (∀ c ∈ calls, c.1 ≤ c.2 ∧ c.2 ≤ rows) →
    ∃ ws, AllConv rec isz chunk cols calls ws ∧ (∀ ws', AllConv rec isz chunk cols calls ws' → ws' = ws) ∧
      (∀ w ∈ ws, w.1 < cols.length ∧ Piece (target rec isz rows cols w.1) w.2.1 w.2.2) ∧
      ∀ c ∈ calls, ∀ (i : Nat) (col : Col) (j : Nat), cols[i]? = some col → c.1 * col.itemsize ≤ j → j < c.2 * col.itemsize → Covers ws i j := by
  intro calls
  induction calls with
  | nil => intro _; exact ⟨[], .nil, fun ws' h => by cases h; rfl, by simp, by simp⟩
  | cons c calls ih =>
    intro h
    obtain ⟨s, e⟩ := c
    obtain ⟨hse, he⟩ := h (s, e) (by simp)
    simp only at hse he
    obtain ⟨ws, h1, hu, h2, h3⟩ := ih (fun c hc => h c (by simp [hc]))
    obtain ⟨ws0, g1, g2, g3⟩ := conv_ok hrec hv hne hc he (e - s) s (by omega)
    refine ⟨ws0 ++ ws, .cons g1 h1, ?_, ?_, ?_⟩
    · intro ws' hw
      cases hw with
      | cons a b => rw [hu _ b, Option.some.inj (conv_det a g1)]
    · intro w hw
      rcases List.mem_append.1 hw with hw | hw
      · simpa using g2 w hw
      · exact h2 w hw
    · intro c hcm i col j hcol hj1 hj2
      rcases List.mem_cons.1 hcm with rfl | hcm
      · obtain ⟨o, x, hm, hx⟩ := g3 i col j hcol hj1 hj2
        rw [Nat.zero_add] at hm
        exact ⟨o, x, List.mem_append.2 (Or.inl hm), hx⟩
      · obtain ⟨o, x, hm, hx⟩ := h3 c hcm i col j hcol hj1 hj2
        exact ⟨o, x, List.mem_append.2 (Or.inr hm), hx⟩

/-- C32 (partial: the C function; the Python wrapper never gets there, see `C32_wrapper_violated`): for records of at least one
byte with at least one field, all fields inside the record, and output arrays of the right sizes, every output column is
exactly the field of all records in order, whatever the number of rows, the sizes and offsets of the fields, the
threading mode and the schedule; no access leaves the arrays, and a result exists. -/
theorem C32_columns_partial (rec : List β) (isz rows : Nat) (cols : List Col) (outs : List (List β)) (hrec : rec.length = rows * isz) (h0 : 0 < isz) (hne : cols ≠ [])
    (hv : ∀ c ∈ cols, 0 ≤ c.readoffset ∧ c.readoffset + c.itemsize ≤ isz) (houts : outs.map List.length = cols.map fun c => rows * c.itemsize) :
    (∀ outs', Result rec isz cols rows outs outs' → outs' = cols.map fun c => fieldColumn rec isz c.readoffset.toNat c.itemsize rows) ∧
    ¬ Faults rec isz cols rows outs ∧ ∃ outs', Result rec isz cols rows outs outs' := by
  obtain ⟨chunk, hc⟩ : ∃ chunk, chunkRows isz = some chunk := by unfold chunkRows; rw [if_neg (by omega)]; exact ⟨_, rfl⟩
  have hlen : outs.length = cols.length := by simpa using congrArg List.length houts
  have hT : (List.range cols.length).map (target rec isz rows cols) = cols.map fun c => fieldColumn rec isz c.readoffset.toNat c.itemsize rows := by
    apply List.ext_getElem
    · simp
    · intro i h1 h2
      simp only [List.length_map, List.length_range] at h1
      simp [target, h1]
  have htl : ∀ i c, cols[i]? = some c → (target rec isz rows cols i).length = rows * c.itemsize := by
    intro i c h
    have hm := hv c (List.mem_of_getElem? h)
    unfold target
    rw [h]
    exact fieldColumn_length hrec.ge (by omega)
  have hol : ∀ (i : Nat) (o : List β), outs[i]? = some o → o.length = (target rec isz rows cols i).length := by
    intro i o h
    have hi : i < outs.length := (List.getElem?_eq_some_iff.1 h).1
    have hci : cols[i]? = some cols[i] := List.getElem?_eq_getElem (by omega)
    rw [htl i _ hci]
    have := congrArg (fun l => l[i]?) houts
    simp only [List.getElem?_map, h, hci, Option.map_some] at this
    exact Option.some.inj this
  have hrun : ∀ calls ws ws', Calls rows calls → AllConv rec isz chunk cols calls ws → ws'.Perm ws →
      RecArray.runWrites outs ws' = some (cols.map fun c => fieldColumn rec isz c.readoffset.toNat c.itemsize rows) := by
    intro calls ws ws' hcalls hall hp
    obtain ⟨k1, k2⟩ := rec_calls hcalls
    obtain ⟨ws0, g1, gu, g2, g3⟩ := rec_all hrec.ge hv hne hc calls k1
    obtain rfl := gu ws hall
    rw [← hT]
    refine runWrites_covered hlen hol (fun w hw => g2 w (hp.mem_iff.1 hw)) ?_
    intro i j hi hj
    have hci : cols[i]? = some cols[i] := List.getElem?_eq_getElem hi
    rw [htl i _ hci] at hj
    have hw0 : 0 < cols[i].itemsize := by
      rcases Nat.eq_zero_or_pos cols[i].itemsize with h | h
      · rw [h] at hj; omega
      · exact h
    obtain ⟨c, hcm, hc1, hc2⟩ := k2 (j / cols[i].itemsize) ((Nat.div_lt_iff_lt_mul hw0).2 hj)
    obtain ⟨o, x, hm, hx⟩ := g3 c hcm i _ j hci ((Nat.le_div_iff_mul_le hw0).1 hc1) ((Nat.div_lt_iff_lt_mul hw0).1 hc2)
    exact ⟨o, x, hp.mem_iff.2 hm, hx⟩
  refine ⟨?_, ?_, ?_⟩
  · rintro outs' ⟨chunk', calls, ws, ws', hc', hcalls, hall, hp, hr⟩
    rw [hc] at hc'
    obtain rfl := Option.some.inj hc'
    rw [hrun calls ws ws' hcalls hall hp] at hr
    exact (Option.some.inj hr).symm
  · rintro (h | ⟨chunk', calls, hc', hcalls, h⟩)
    · rw [hc] at h; cases h
    · rw [hc] at hc'
      obtain rfl := Option.some.inj hc'
      rcases h with ⟨c, hcm, hcv⟩ | ⟨ws, ws', hall, hp, hr⟩
      · have := (rec_calls hcalls).1 c hcm
        obtain ⟨ws, g1, _⟩ := conv_ok hrec.ge hv hne hc this.2 (c.2 - c.1) c.1 (by omega)
        have := conv_det hcv g1
        cases this
      · rw [hrun calls ws ws' hcalls hall hp] at hr; cases hr
  · obtain ⟨calls, hcalls⟩ : ∃ calls, Calls rows calls := by
      by_cases h : 16384 < rows
      · exact ⟨_, .unthreaded h⟩
      · exact ⟨_, .small h⟩
    obtain ⟨ws, g1, _⟩ := rec_all hrec.ge hv hne hc calls (rec_calls hcalls).1
    exact ⟨_, chunk, calls, ws, ws, hc, hcalls, g1, List.Perm.refl _, hrun calls ws ws hcalls g1 (List.Perm.refl _)⟩

/-- Two records of a 2-byte field at 1 and a 3-byte field at 3. -/
example : ∃ outs', Result "abcdefABCDEF".toList 6 [⟨1, 2⟩, ⟨3, 3⟩] 2 ["????".toList, "??????".toList] outs' ∧ outs' = ["bcBC".toList, "defDEF".toList] := by
  obtain ⟨h1, _, outs', h2⟩ := C32_columns_partial "abcdefABCDEF".toList 6 2 [⟨1, 2⟩, ⟨3, 3⟩] ["????".toList, "??????".toList] (by decide) (by decide) (by simp) (by decide) (by decide)
  exact ⟨outs', h2, by rw [h1 outs' h2]; decide⟩

/-- C32, violated: the Python function pnumpy.recarray_to_colmajor raises a NameError for every record array (a misspelt variable). -/
theorem C32_wrapper_violated (fields : List Char) (parallel : Bool) : pyToColmajor fields parallel = .error "NameError: name 'successs' is not defined" := rfl

/-- C32, violated: the C function does not validate the offsets array; e.g. any negative offset of a 1- or 2-byte column makes it read outside
the records. -/
theorem C32_offset_violated (rec : List β) (isz rows w : Nat) (off : Int) (outs : List (List β)) (h0 : 0 < isz) (hr : 0 < rows) (hr' : rows ≤ 16384) (hw : w = 1 ∨ w = 2)
    (hoff : off < 0) : Faults rec isz [⟨off, w⟩] rows outs := by
  obtain ⟨chunk, hc⟩ : ∃ chunk, chunkRows isz = some chunk := by unfold chunkRows; rw [if_neg (by omega)]; exact ⟨_, rfl⟩
  have hch := (chunkRows_ok hc).2.1
  refine Or.inr ⟨chunk, _, hc, .small (by omega), Or.inl ⟨(0, rows), List.mem_singleton.2 rfl, .fault hr ?_⟩⟩
  have hrd : rd rec (off + ((0 : Nat) : Int) * isz) w = none := by unfold rd; rw [if_neg (by simp; omega)]
  rw [columns, column, if_pos hw, rowLoop, dif_pos (by omega)]
  simp only
  rw [hrd]; rfl

/-! ### C33 -/

theorem rowLoop_end {rec : List β} {isz : Nat} {c : Col} {e : Nat} : ∀ (d s : Nat) {ws s'}, s + d = e → rowLoop rec isz c e s = some (ws, s') → s' = e := by
  intro d
  induction d with
  | zero =>
    intro s ws s' hs h
    rw [rowLoop, dif_neg (by omega)] at h
    have := (Prod.mk.inj (Option.some.inj h)).2; omega
  | succ d ih =>
    intro s ws s' hs h
    rw [rowLoop, dif_pos (by omega)] at h
    obtain ⟨x, _, h⟩ := Option.bind_eq_some_iff.1 h
    obtain ⟨⟨w1, s1⟩, h1, h⟩ := Option.bind_eq_some_iff.1 h
    have := (Prod.mk.inj (Option.some.inj h)).2
    subst this
    exact ih (s + 1) (by omega) h1

theorem itemLoop_end {rec : List β} {isz : Nat} {c : Col} {e : Nat} : ∀ (d s : Nat) {ws s'}, s + d = e → RecArray.itemLoop rec isz c e s = some (ws, s') → s' = e := by
  intro d
  induction d with
  | zero =>
    intro s ws s' hs h
    rw [RecArray.itemLoop, dif_neg (by omega)] at h
    have := (Prod.mk.inj (Option.some.inj h)).2; omega
  | succ d ih =>
    intro s ws s' hs h
    rw [RecArray.itemLoop, dif_pos (by omega)] at h
    obtain ⟨x, _, h⟩ := Option.bind_eq_some_iff.1 h
    obtain ⟨⟨w1, s1⟩, h1, h⟩ := Option.bind_eq_some_iff.1 h
    have := (Prod.mk.inj (Option.some.inj h)).2
    subst this
    exact ih (s + 1) (by omega) h1

theorem gatherLoop_end {rec : List β} {isz lanes : Nat} {c : Col} {e : Nat} : ∀ (d s : Nat) {ws s'}, s + d = e →
    gatherLoop rec isz c lanes ((e : Int) - lanes) s = some (ws, s') → s' ≤ e := by
  intro d
  induction d using Nat.strongRecOn with
  | _ d ih =>
    intro s ws s' hs h
    rw [gatherLoop] at h
    by_cases hc : (s : Int) < (e : Int) - lanes ∧ 0 < lanes
    · rw [dif_pos hc] at h
      obtain ⟨x, _, h⟩ := Option.bind_eq_some_iff.1 h
      obtain ⟨⟨w1, s1⟩, h1, h⟩ := Option.bind_eq_some_iff.1 h
      have := (Prod.mk.inj (Option.some.inj h)).2
      subst this
      exact ih (d - lanes) (by omega) (s + lanes) (by omega) h1
    · rw [dif_neg hc] at h
      have := (Prod.mk.inj (Option.some.inj h)).2; omega

theorem column_end {rec : List β} {isz : Nat} {c : Col} {s e : Nat} {ws : List (Int × List β)} {s' : Nat} (hse : s ≤ e)
    (h : column rec isz c s e = some (ws, s')) : s' = e := by
  unfold column at h
  split at h
  · exact rowLoop_end (e - s) s (by omega) h
  · split at h
    · obtain ⟨⟨w1, s1⟩, h1, h⟩ := Option.bind_eq_some_iff.1 h
      obtain ⟨⟨w2, s2⟩, h2, h⟩ := Option.bind_eq_some_iff.1 h
      have := (Prod.mk.inj (Option.some.inj h)).2
      subst this
      have hle := gatherLoop_end (e - s) s (by omega) h1
      exact rowLoop_end (e - s1) s1 (by omega) h2
    · exact itemLoop_end (e - s) s (by omega) h

theorem columns_end {rec : List β} {isz s e : Nat} (hse : s ≤ e) : ∀ (cols : List Col) (i x : Nat) {ws s'}, cols ≠ [] →
    columns rec isz s e i cols x = some (ws, s') → s' = e := by
  intro cols
  induction cols with
  | nil => intro i x ws s' h; simp at h
  | cons c cols ih =>
    intro i x ws s' _ h
    rw [columns] at h
    obtain ⟨⟨w1, s1⟩, h1, h⟩ := Option.bind_eq_some_iff.1 h
    obtain ⟨⟨w2, s2⟩, h2, h⟩ := Option.bind_eq_some_iff.1 h
    have := (Prod.mk.inj (Option.some.inj h)).2
    subst this
    have he := column_end hse h1
    cases cols with
    | nil =>
      rw [columns] at h2
      have := (Prod.mk.inj (Option.some.inj h2)).2
      omega
    | cons c' cols => exact ih (i + 1) s1 (by simp) h2

/-- C33 (partial: at least one field, records of at least one byte, and for more than 16384 rows with threads at least one
worker that keeps running): every pass over any range of rows ends, whatever the offsets, sizes and contents; and with
threads the call comes back under every fair schedule. -/
theorem C33_returns_partial (rec : List β) (isz chunk rows wakeup : Nat) (cols : List Col) (hne : cols ≠ []) (hc : chunkRows isz = some chunk) (hw : 1 ≤ wakeup) :
    (∀ s e, ∃ r, Conv rec isz chunk cols e s r) ∧
    ∀ σ, Counter.Fair { n := (rows + 16383) / 16384, skip0 := true, wakeup } σ → (∀ t, ∃ t', t ≤ t' ∧ σ t' = .go 1) →
      ∃ t, (Counter.trace { n := (rows + 16383) / 16384, skip0 := true, wakeup } σ t).pc 0 = .returned := by
  refine ⟨fun s e => ?_, fun σ hf hσ => C04_index_progress_partial _ _ σ 1 (Nat.le_refl 1) hw hf hσ⟩
  obtain ⟨_, hch, _⟩ := chunkRows_ok hc
  have : ∀ d s, e - s ≤ d → ∃ r, Conv rec isz chunk cols e s r := by
    intro d
    induction d with
    | zero => intro s h; exact ⟨_, .done (by omega)⟩
    | succ d ih =>
      intro s h
      by_cases hs : s < e
      · cases hcol : columns rec isz s (min (s + chunk) e) 0 cols s with
        | none => exact ⟨_, .fault hs hcol⟩
        | some p =>
          obtain ⟨ws, s'⟩ := p
          have := columns_end (by omega) cols 0 s hne hcol
          obtain ⟨r, hr⟩ := ih s' (by omega)
          exact ⟨_, .step hs hcol hr⟩
      · exact ⟨_, .done hs⟩
  exact this (e - s) s (Nat.le_refl _)

/-- Sizes of up to 16384 bytes per record and more are accepted. -/
example : chunkRows 24 = some 682 ∧ chunkRows 100000 = some 1 := by decide

/-- C33, violated: without any field the conversion of a nonempty array never ends. -/
theorem C33_no_fields_violated (rec : List β) (isz chunk rows s : Nat) (h : s < rows) (r : Option (List (Write β))) : ¬ Conv rec isz chunk [] rows s r := by
  intro hr
  generalize hk : ([] : List Col) = cols at hr
  induction hr with
  | done h' => exact h' h
  | fault _ h' => subst hk; simp [columns] at h'
  | step _ h' _ ih =>
    subst hk
    obtain ⟨_, rfl⟩ := by simpa [columns] using h'
    exact ih h

/-- C33, violated: for records of size 0 the call divides by zero, even for an empty array. -/
theorem C33_zero_size_violated (rec : List β) (cols : List Col) (rows : Nat) (outs : List (List β)) : Faults rec 0 cols rows outs := Or.inl rfl

/-- C33, violated: with threads enabled but no worker taking part, the conversion of more than 16384 rows never returns. -/
theorem C33_no_worker_violated (rows : Nat) (h : 16384 < rows) (sched : List Counter.Act) :
    (Counter.exec { n := (rows + 16383) / 16384, skip0 := true, wakeup := 0 } sched).pc 0 ≠ .returned :=
  C04_index_hangs_without_worker _ (by omega) sched

private theorem counter_trace_exec (g : Counter.Cfg) (σ : Nat → Counter.Act) : ∀ k, Counter.trace g σ k = Counter.exec g ((List.range k).map σ)
  | 0 => rfl
  | k + 1 => by
    rw [Counter.trace, counter_trace_exec g σ k, List.range_succ, List.map_append]
    simp [Counter.exec, List.foldl_append]

/-- C33, exactly. One thread: the rows from `s` to `e` are converted in finite time (or the conversion stops with an access outside the array) if and only if records are not
empty and there is a field or no row. Threads: the conversion of more than 16384 rows returns, when the caller and a worker keep running, if and only if a worker takes part. -/
theorem C33_iff_partial (rec : List β) (isz : Nat) (cols : List Col) :
    (∀ s e, (∃ chunk, chunkRows isz = some chunk ∧ ∃ r, Conv rec isz chunk cols e s r) ↔ 0 < isz ∧ (cols ≠ [] ∨ e ≤ s)) ∧
    ∀ rows wakeup, 16384 < rows → ∀ σ, Counter.Fair { n := (rows + 16383) / 16384, skip0 := true, wakeup } σ → (∀ t, ∃ t', t ≤ t' ∧ σ t' = .go 1) →
      ((∃ t, (Counter.trace { n := (rows + 16383) / 16384, skip0 := true, wakeup } σ t).pc 0 = .returned) ↔ 1 ≤ wakeup) := by
  refine ⟨fun s e => ⟨?_, ?_⟩, fun rows wakeup hrows σ hf hσ => ⟨?_, fun hw => C04_index_progress_partial _ _ σ 1 (Nat.le_refl 1) hw hf hσ⟩⟩
  · rintro ⟨chunk, hc, r, hr⟩
    refine ⟨?_, ?_⟩
    · rcases Nat.eq_zero_or_pos isz with rfl | h
      · simp [chunkRows] at hc
      · exact h
    · by_contra h
      rw [not_or] at h
      have : cols = [] := by simpa using h.1
      subst this
      exact C33_no_fields_violated rec isz chunk e s (by omega) r hr
  · rintro ⟨h0, h⟩
    have hc : ∃ chunk, chunkRows isz = some chunk := by unfold chunkRows; rw [if_neg (by omega)]; exact ⟨_, rfl⟩
    obtain ⟨chunk, hc⟩ := hc
    refine ⟨chunk, hc, ?_⟩
    rcases h with h | h
    · exact (C33_returns_partial rec isz chunk 0 1 cols h hc (Nat.le_refl 1)).1 s e
    · exact ⟨_, .done (by omega)⟩
  · rintro ⟨t, ht⟩
    by_contra hw
    obtain rfl : wakeup = 0 := by omega
    rw [counter_trace_exec] at ht
    exact C33_no_worker_violated rows hrows _ ht

/-- Case: five rows of eight bytes with one field; none of them without a field; an empty range needs no field. -/
example (rec : List Nat) (c : Col) : (∃ chunk, chunkRows 8 = some chunk ∧ ∃ r, Conv rec 8 chunk [c] 5 0 r) ∧
    (¬ ∃ chunk, chunkRows 8 = some chunk ∧ ∃ r, Conv rec 8 chunk [] 5 0 r) ∧ (∃ chunk, chunkRows 8 = some chunk ∧ ∃ r, Conv rec 8 chunk [] 5 5 r) := by
  rw [(C33_iff_partial rec 8 [c]).1, (C33_iff_partial rec 8 []).1, (C33_iff_partial rec 8 []).1]
  simp

end Pnumpy.Props
