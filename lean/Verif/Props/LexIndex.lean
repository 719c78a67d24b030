import Verif.Props.LexEntry
import Verif.Props.SortApi
/-
Property theorem C66 (`index=` and `cutoffs=` of lexsort), and what the argument handling of lexsort gets wrong (C64-C66).
-/
namespace Pnumpy.Props
open Pnumpy.Sort Pnumpy.Lex Pnumpy.LexEntry Spec

theorem ints_holds {a : Arr} {w : Nat} {xs : List Int} (h : a.HoldsInts w xs) : arrayLength a = xs.length ∧ ints w xs.length a = xs := by
  refine ⟨by unfold arrayLength; rw [h.1]; simp, ?_⟩
  unfold ints
  apply List.ext_getElem?
  intro i
  rw [List.getElem?_map]
  by_cases hi : i < xs.length
  · rw [List.getElem?_range hi, List.getElem?_eq_getElem hi]
    simp only [Option.map_some]
    rw [← h.2.2.2 i xs[i] (List.getElem?_eq_getElem hi)]
  · rw [List.getElem?_eq_none (by simpa using hi), List.getElem?_eq_none (by omega)]; rfl

theorem naturals_ofNat (ix : List Nat) : naturals (ix.map Int.ofNat) = some ix := by
  unfold naturals
  rw [if_pos]
  · congr 1
    rw [List.map_map]
    conv => rhs; rw [← List.map_id ix]
    rfl
  · rw [List.all_map, List.all_eq_true]
    intro x _
    simp

/-- The dtype of an index array of `w`-byte integers. -/
def IndexType (w : Nat) (dtype : Int) : Prop := (w = 4 ∧ dtype = 5) ∨ (w = 8 ∧ (dtype = 7 ∨ dtype = 9))

/-- **C66**: with a packed `index=` array of the right integer type that holds at least one and at most `n` row numbers below `n`, the call raises only if
a key is not usable or memory runs out; otherwise it returns this very array, which now holds the same row numbers in stable lexicographic order. -/
theorem C66_index_partial (w : Nat) (hw : w = 4 ∨ w = 8) (fails : Nat → Bool) (allocFails : Bool) (args : List PyObj) (kind : Option (List Char))
    (h h' : Heap) (o : Out) (n : Nat) (cs : List Col) (hk : List.Forall₂ (KeyIs h n) (keysOf args) cs) (hne : keysOf args ≠ []) (hkind : StableKind kind)
    (hc : ∀ c ∈ cs, c.Good ∧ c.rows = n) (hn : n < 2 ^ (8 * w - 1)) (hs : (∃ c ∈ cs, Col.isStr c) → n < 65536)
    (idx : Nat) (hidx : idx < h.next) (ix0 : List Nat) (hi : (h.arr idx).HoldsInts w (ix0.map Int.ofNat)) (ht : IndexType w (h.arr idx).dtype)
    (h0 : 0 < ix0.length) (h0' : ix0.length ≤ n) (hlt : ∀ i ∈ ix0, i < n)
    (hl : Lexsort w fails allocFails args ⟨.absent, .array idx, kind⟩ h h' o) :
    (Out.Raises o ∧ ((∃ j, fails j = true) ∨ ¬ Usable h (keysOf args))) ∨
      ∃ ix, o = .sorted idx ix ∧ (h'.arr idx).HoldsInts w (ix.map Int.ofNat) ∧ IsStableReorder (RowBefore (cs.map Col.before)) ix0 ix := by
  have hn63 : n < 2 ^ 63 := by
    rcases hw with rfl | rfl
    · exact Nat.lt_trans hn (by decide)
    · exact hn
  rcases prepared (fails := fails) (forall₂_imp (fun _ _ k => k.raw) hk) hne with ⟨h1, e, hr⟩ | ⟨h1, is, ob, e, k1, k2, k3, k4, k5, g⟩
  · cases hl with
    | fault hp' => rw [e] at hp'; cases hp'
    | null hp' => exact Or.inl ⟨Or.inr rfl, hr⟩
    | body hp' => rw [e] at hp'; cases hp'
  · have ga := g.2 idx hidx
    obtain ⟨i1, i2⟩ := ints_holds hi
    rw [List.length_map] at i1 i2
    have hck : checks w is ⟨.absent, .array idx, kind⟩ h1 = .inr (none, ⟨some idx, ix0.length, .given (ix0.map Int.ofNat)⟩) := by
      unfold checks
      rw [k2, k3]
      show (match planIndex w h1 n (.array idx) with
        | .inl o => .inl o
        | .inr p => .inr (none, p) : Out ⊕ (Option (List Int) × Plan)) = _
      unfold planIndex
      simp only
      rw [ga, i1, i2]
      rw [if_pos h0, if_neg (by omega : ¬ ix0.length > n)]
      rcases ht with ⟨rfl, hd⟩ | ⟨rfl, hd | hd⟩ <;> rw [hd] <;> simp [isInt64, isInt32]
    have hlen63 : ix0.length < 2 ^ 63 := Nat.lt_of_le_of_lt h0' hn63
    cases hl with
    | fault hp' => rw [e] at hp'; cases hp'
    | null hp' => rw [e] at hp'; cases hp'
    | @body h1' h2 is' _ hp' hb =>
      rw [e] at hp'
      cases hp'
      cases hb with
      | stop h2 => rw [hck] at h2; cases h2
      | noPrototype h2 h3 => rw [hck] at h2; cases h2; cases h3
      | noMemory h2 h3 => rw [hck] at h2; cases h2; cases h3
      | fresh a h2 h3 => rw [hck] at h2; cases h2; cases h3
      | @inPlace cut p o' cs' jx ix h2 h3 h7 h8 h9 =>
        rw [hck] at h2
        cases h2
        cases h3
        obtain rfl := (k1 _).1 h7
        have := h8.2 rfl
        simp only at this
        rw [naturals_ofNat] at this
        cases this
        have h9' : Passes .merge cs' ix0 ix := by
          have : Passes (getKind kind) cs' ix0 ix := h9
          rwa [kind_merge hkind] at this
        have hst := passes_order hc hlt hlen63 (fun h => Nat.lt_of_le_of_lt h0' (hs h)) h9'
        refine Or.inr ⟨ix, rfl, ?_, hst⟩
        rw [(freeInfo_frame is _).1]
        have : ((h1.incref idx).store idx w ix).arr idx = { h1.arr idx with mem := storeInts w ix (h1.arr idx).mem } := by
          show Function.update h1.arr idx { h1.arr idx with mem := storeInts w ix (h1.arr idx).mem } idx = _
          rw [Function.update_self]
        rw [this, ga]
        refine holds_stored ?_ hi.2.1 hi.2.2.1 (by omega) fun i hi' => ?_
        · rw [hi.1, List.length_map, hst.1.length_eq]
        · have := hlt i (hst.1.mem_iff.1 hi')
          omega
      | negative h2 h3 h4 =>
        rw [hck] at h2; cases h2; cases h3
        rw [naturals_ofNat] at h4; cases h4
      | @sortFault cut p cs' jx h2 h3 h4 h5 =>
        rw [hck] at h2
        cases h2
        obtain rfl := (k1 _).1 h3
        have := h4.2 rfl
        simp only at this
        rw [naturals_ofNat] at this
        cases this
        exfalso
        apply h5
        obtain ⟨ix, hix⟩ := passes_exist hc hlt hlen63
        refine ⟨ix, ?_⟩
        show Passes (getKind kind) cs' ix0 ix
        rw [kind_merge hkind]
        exact hix

/-- **C66**: `cutoffs=` of another type than a 64-bit integer, or (packed) that do not end with the number of rows, are
refused, whatever the index and the kind. -/
theorem C66_bad_cutoffs_refused (w : Nat) (fails : Nat → Bool) (allocFails : Bool) (args : List PyObj) (kind : Option (List Char))
    (index : KwArg) (h h' : Heap) (o : Out) (n : Nat) (cs : List Col) (hk : List.Forall₂ (KeyIs h n) (keysOf args) cs) (hne : keysOf args ≠ [])
    (cid : Nat) (hcid : cid < h.next)
    (hbad : (h.arr cid).dtype ≠ 7 ∧ (h.arr cid).dtype ≠ 9 ∨
      ∃ cut : List Int, (h.arr cid).HoldsInts 8 cut ∧ ∃ l, cut.getLast? = some l ∧ l ≠ n)
    (hl : Lexsort w fails allocFails args ⟨.array cid, index, kind⟩ h h' o) : Out.Raises o := by
  rcases prepared (fails := fails) (forall₂_imp (fun _ _ k => k.raw) hk) hne with ⟨h1, e, hr⟩ | ⟨h1, is, ob, e, k1, k2, k3, k4, k5, g⟩
  · cases hl with
    | fault hp' => rw [e] at hp'; cases hp'
    | null hp' => exact Or.inr rfl
    | body hp' => rw [e] at hp'; cases hp'
  · have ga := g.2 cid hcid
    have hcut : cutoffsOf h1 n (.array cid) = .inl .error := by
      unfold cutoffsOf
      simp only
      rw [ga]
      rcases hbad with hd | ⟨cut, hi, l, hl1, hl2⟩
      · rw [if_neg]
        simp only [isInt64, Bool.or_eq_true, beq_iff_eq, not_or]
        exact hd
      · obtain ⟨i1, i2⟩ := ints_holds hi
        rw [i1, i2, hl1]
        simp only [ne_eq, hl2, not_false_iff, if_true, ite_self]
    have hck : checks w is ⟨.array cid, index, kind⟩ h1 = .inl .error := by
      unfold checks
      rw [k3, hcut]
    cases hl with
    | fault hp' => rw [e] at hp'; cases hp'
    | null hp' => rw [e] at hp'; cases hp'
    | body hp' hb =>
      rw [e] at hp'
      cases hp'
      cases hb with
      | stop h2 => rw [hck] at h2; cases h2; exact Or.inl rfl
      | noPrototype h2 => rw [hck] at h2; cases h2
      | noMemory h2 => rw [hck] at h2; cases h2
      | fresh _ h2 => rw [hck] at h2; cases h2
      | inPlace h2 => rw [hck] at h2; cases h2
      | negative h2 => rw [hck] at h2; cases h2
      | sortFault h2 => rw [hck] at h2; cases h2

/-- **C66**: with packed int64 `cutoffs=` that ascend to the number of rows, the call raises only if a key is not usable or memory runs out; otherwise the
new array holds, partition by partition, the stable lexicographic argsort of the rows of the partition (counted from its start). The `kind` is ignored. -/
theorem C66_cutoffs_partial (w : Nat) (hw : w = 4 ∨ w = 8) (fails : Nat → Bool) (allocFails : Bool) (args : List PyObj) (kind : Option (List Char))
    (h h' : Heap) (o : Out) (n : Nat) (cs : List Col) (hk : List.Forall₂ (KeyIs h n) (keysOf args) cs) (hne : keysOf args ≠ [])
    (hc : ∀ c ∈ cs, c.Good ∧ c.rows = n) (hn : n < 2 ^ (8 * w - 1))
    (cid : Nat) (hcid : cid < h.next) (cut : List Nat) (hi : (h.arr cid).HoldsInts 8 (cut.map Int.ofNat)) (ht : IndexType 8 (h.arr cid).dtype)
    (hasc : cut.Pairwise (· ≤ ·)) (hlast : cut.getLast? = some n)
    (hl : Lexsort w fails allocFails args ⟨.array cid, .absent, kind⟩ h h' o) :
    (Out.Raises o ∧ ((∃ j, fails j = true) ∨ allocFails = true ∨ ¬ Usable h (keysOf args))) ∨
      ∃ r ix, o = .sorted r ix ∧ h.next ≤ r ∧ (h'.arr r).HoldsInts w (ix.map Int.ofNat) ∧ ∀ t, t < cut.length →
        IsStableArgsort (RowBefore (cs.map fun c => (c.slice (cutLo cut t) (cutHi cut t)).before)) id
          (cutHi cut t - cutLo cut t) ((ix.drop (cutLo cut t)).take (cutHi cut t - cutLo cut t)) := by
  have hn63 : n < 2 ^ 63 := by
    rcases hw with rfl | rfl
    · exact Nat.lt_trans hn (by decide)
    · exact hn
  rcases prepared (fails := fails) (forall₂_imp (fun _ _ k => k.raw) hk) hne with ⟨h1, e, hr⟩ | ⟨h1, is, ob, e, k1, k2, k3, k4, k5, g⟩
  · cases hl with
    | fault hp' => rw [e] at hp'; cases hp'
    | null hp' => exact Or.inl ⟨Or.inr rfl, hr.elim Or.inl fun h => Or.inr (Or.inr h)⟩
    | body hp' => rw [e] at hp'; cases hp'
  · have ga := g.2 cid hcid
    obtain ⟨i1, i2⟩ := ints_holds hi
    rw [List.length_map] at i1 i2
    have hck : checks w is ⟨.array cid, .absent, kind⟩ h1 = .inr (some (cut.map Int.ofNat), ⟨none, n, .arange⟩) := by
      have hcut : cutoffsOf h1 n (.array cid) = .inr (some (cut.map Int.ofNat)) := by
        unfold cutoffsOf
        simp only
        rw [ga, i1, i2, List.getLast?_map, hlast]
        have h64 : isInt64 (h.arr cid).dtype = true := by
          rcases ht with ⟨h, _⟩ | ⟨_, hd | hd⟩
          · cases h
          all_goals rw [hd]; rfl
        rw [if_pos h64]
        simp
      unfold checks
      rw [k2, k3, hcut]
      rfl
    cases hl with
    | fault hp' => rw [e] at hp'; cases hp'
    | null hp' => rw [e] at hp'; cases hp'
    | @body h1' h2 is' _ hp' hb =>
      rw [e] at hp'
      cases hp'
      cases hb with
      | stop h2 => rw [hck] at h2; cases h2
      | noPrototype h2 _ h4 => rw [k4] at h4; cases h4
      | noMemory _ _ _ ha => exact Or.inl ⟨Or.inr rfl, Or.inr (Or.inl ha)⟩
      | @fresh _ p o' cs' ix0 ix a h2 h3 h4 h5 h6 h7 h8 h9 =>
        rw [hck] at h2
        cases h2
        obtain rfl := (k1 _).1 h7
        rw [k4] at h4
        cases h4
        obtain ⟨c, hc1, hrun⟩ := h9
        rw [naturals_ofNat] at hc1
        cases hc1
        have hlen0 : ix0.length = n := h8.1
        obtain ⟨hlen, hst⟩ := (C25_cutoffs_partial cs' cut ix0 n hc hn63 hasc hlast hlen0).2 ix hrun
        refine Or.inr ⟨_, ix, rfl, g.1, ?_, hst⟩
        rw [(freeInfo_frame is _).1]
        have : ((h1.new a).store h1.next w ix).arr h1.next = { a with mem := storeInts w ix a.mem } := by
          show Function.update (Function.update h1.arr h1.next a) h1.next { Function.update h1.arr h1.next a h1.next with
            mem := storeInts w ix (Function.update h1.arr h1.next a h1.next).mem } h1.next = _
          rw [Function.update_self, Function.update_self]
        rw [this]
        refine holds_stored (by rw [h6.1, k5, hlen]) h6.2.1 h6.2.2.2 (by omega) fun i hi => ?_
        obtain ⟨p, hp, rfl⟩ := List.getElem_of_mem hi
        obtain ⟨t, ht1, ht2, ht3⟩ : ∃ t, t < cut.length ∧ cutLo cut t ≤ p ∧ p < cutHi cut t := by
          rw [hlen] at hp
          exact ValidCut.cover ⟨hasc, hlast⟩ hp
        have hmem : ix[p] ∈ (ix.drop (cutLo cut t)).take (cutHi cut t - cutLo cut t) := by
          refine List.mem_iff_getElem?.2 ⟨p - cutLo cut t, ?_⟩
          rw [List.getElem?_take, if_pos (by omega), List.getElem?_drop, show cutLo cut t + (p - cutLo cut t) = p by omega]
          exact List.getElem?_eq_getElem hp
        have h10 := List.mem_range.1 ((hst t ht1).1.mem_iff.1 hmem)
        have h11 : cutHi cut t ≤ n := ValidCut.hi_le ⟨hasc, hlast⟩ ht1
        omega
      | inPlace h2 h3 => rw [hck] at h2; cases h2; cases h3
      | negative h2 h3 => rw [hck] at h2; cases h2
      | @sortFault _ p cs' ix0 h2 h3 h4 h5 =>
        rw [hck] at h2
        cases h2
        obtain rfl := (k1 _).1 h3
        exfalso
        apply h5
        obtain ⟨ix, hix⟩ := (C25_cutoffs_partial cs' cut ix0 n hc hn63 hasc hlast h4.1).1
        exact ⟨ix, cut, naturals_ofNat cut, hix⟩

/-! ### What the argument handling gets wrong -/

/-- The `index=` argument is accepted. -/
theorem plan_given {w : Nat} {h h1 : Heap} {idx n : Nat} {ix0 : List Nat} (ga : h1.arr idx = h.arr idx)
    (hi : (h.arr idx).HoldsInts w (ix0.map Int.ofNat)) (ht : IndexType w (h.arr idx).dtype) (h0 : 0 < ix0.length) (h0' : ix0.length ≤ n) :
    planIndex w h1 n (.array idx) = .inr ⟨some idx, ix0.length, .given (ix0.map Int.ofNat)⟩ := by
  obtain ⟨i1, i2⟩ := ints_holds hi
  rw [List.length_map] at i1 i2
  unfold planIndex
  simp only
  rw [ga, i1, i2]
  rw [if_pos h0, if_neg (by omega : ¬ ix0.length > n)]
  rcases ht with ⟨rfl, hd⟩ | ⟨rfl, hd | hd⟩ <;> rw [hd] <;> simp [isInt64, isInt32]

/-- The `cutoffs=` argument is accepted. -/
theorem cutoffs_given {h h1 : Heap} {cid n : Nat} {cut : List Nat} (ga : h1.arr cid = h.arr cid)
    (hi : (h.arr cid).HoldsInts 8 (cut.map Int.ofNat)) (ht : IndexType 8 (h.arr cid).dtype) (hlast : cut.getLast? = some n) :
    cutoffsOf h1 n (.array cid) = .inr (some (cut.map Int.ofNat)) := by
  obtain ⟨i1, i2⟩ := ints_holds hi
  rw [List.length_map] at i1 i2
  unfold cutoffsOf
  simp only
  rw [ga, i1, i2, List.getLast?_map, hlast]
  have h64 : isInt64 (h.arr cid).dtype = true := by
    rcases ht with ⟨h, _⟩ | ⟨_, hd | hd⟩
    · cases h
    all_goals rw [hd]; rfl
  rw [if_pos h64]
  simp

/-- **C66**: a call with such an `index=` can be carried out. -/
theorem C66_index_finishes (w : Nat) (args : List PyObj) (kind : Option (List Char)) (h : Heap) (n : Nat) (cs : List Col)
    (hk : List.Forall₂ (KeyIs h n) (keysOf args) cs) (hne : keysOf args ≠ []) (hkind : StableKind kind) (hu : Usable h (keysOf args))
    (hc : ∀ c ∈ cs, c.Good ∧ c.rows = n) (hn : n < 2 ^ 63)
    (idx : Nat) (hidx : idx < h.next) (ix0 : List Nat) (hi : (h.arr idx).HoldsInts w (ix0.map Int.ofNat)) (ht : IndexType w (h.arr idx).dtype)
    (h0 : 0 < ix0.length) (h0' : ix0.length ≤ n) (hlt : ∀ i ∈ ix0, i < n) :
    ∃ h' ix, Lexsort w (fun _ => false) false args ⟨.absent, .array idx, kind⟩ h h' (.sorted idx ix) := by
  rcases prepared (fails := fun _ => false) (forall₂_imp (fun _ _ k => k.raw) hk) hne with ⟨h1, e, hr⟩ | ⟨h1, is, ob, e, k1, k2, k3, k4, k5, g⟩
  · rcases hr with ⟨_, hr⟩ | hr
    · cases hr
    · exact absurd hu hr
  · have hck : checks w is ⟨.absent, .array idx, kind⟩ h1 = .inr (none, ⟨some idx, ix0.length, .given (ix0.map Int.ofNat)⟩) := by
      unfold checks
      rw [k2, k3]
      simp only [cutoffsOf, plan_given (g.2 idx hidx) hi ht h0 h0']
    obtain ⟨ix, hix⟩ := passes_exist hc hlt (Nat.lt_of_le_of_lt h0' hn)
    refine ⟨_, ix, .body e (.inPlace (ix0 := ix0) hck rfl ((k1 cs).2 rfl) ⟨rfl, fun _ => naturals_ofNat ix0⟩ ?_)⟩
    show Passes (getKind kind) cs ix0 ix
    rw [kind_merge hkind]
    exact hix

/-- **C66**: a call with such `cutoffs=` can be carried out. -/
theorem C66_cutoffs_finishes (w : Nat) (args : List PyObj) (kind : Option (List Char)) (h : Heap) (n : Nat) (cs : List Col)
    (hk : List.Forall₂ (KeyIs h n) (keysOf args) cs) (hne : keysOf args ≠ []) (hu : Usable h (keysOf args))
    (hc : ∀ c ∈ cs, c.Good ∧ c.rows = n) (hn : n < 2 ^ 63)
    (cid : Nat) (hcid : cid < h.next) (cut : List Nat) (hi : (h.arr cid).HoldsInts 8 (cut.map Int.ofNat)) (ht : IndexType 8 (h.arr cid).dtype)
    (hasc : cut.Pairwise (· ≤ ·)) (hlast : cut.getLast? = some n) :
    ∃ h' r ix, Lexsort w (fun _ => false) false args ⟨.array cid, .absent, kind⟩ h h' (.sorted r ix) := by
  rcases prepared (fails := fun _ => false) (forall₂_imp (fun _ _ k => k.raw) hk) hne with ⟨h1, e, hr⟩ | ⟨h1, is, ob, e, k1, k2, k3, k4, k5, g⟩
  · rcases hr with ⟨_, hr⟩ | hr
    · cases hr
    · exact absurd hu hr
  · have hck : checks w is ⟨.array cid, .absent, kind⟩ h1 = .inr (some (cut.map Int.ofNat), ⟨none, n, .arange⟩) := by
      unfold checks
      rw [k2, k3, cutoffs_given (g.2 cid hcid) hi ht hlast]
      rfl
    obtain ⟨ix, hix⟩ := (C25_cutoffs_partial cs cut (List.range n) n hc hn hasc hlast (by simp)).1
    exact ⟨_, _, ix, .body e (.fresh (ix0 := List.range n) ⟨(h1.arr ob).dims, [(w : Int)], w, 7, false, fun _ => 0⟩ hck rfl k4 rfl
      ⟨rfl, rfl, rfl, rfl⟩ ((k1 cs).2 rfl) ⟨by simp, fun h => by cases h⟩ ⟨cut, naturals_ofNat cut, hix⟩)⟩

/-- **C66**: with both, a packed `index=` array of the right integer type with as many entries as there are rows (whatever they are) and such
`cutoffs=`: the very index array is returned and holds, partition by partition, the stable lexicographic argsort of the rows of the partition. -/
theorem C66_index_and_cutoffs_partial (w : Nat) (hw : w = 4 ∨ w = 8) (fails : Nat → Bool) (allocFails : Bool) (args : List PyObj) (kind : Option (List Char))
    (h h' : Heap) (o : Out) (n : Nat) (cs : List Col) (hk : List.Forall₂ (KeyIs h n) (keysOf args) cs) (hne : keysOf args ≠ [])
    (hc : ∀ c ∈ cs, c.Good ∧ c.rows = n) (hn : n < 2 ^ (8 * w - 1))
    (idx : Nat) (hidx : idx < h.next) (ix0 : List Nat) (hi0 : (h.arr idx).HoldsInts w (ix0.map Int.ofNat)) (ht0 : IndexType w (h.arr idx).dtype)
    (h0 : 0 < n) (h0' : ix0.length = n)
    (cid : Nat) (hcid : cid < h.next) (cut : List Nat) (hi : (h.arr cid).HoldsInts 8 (cut.map Int.ofNat)) (ht : IndexType 8 (h.arr cid).dtype)
    (hasc : cut.Pairwise (· ≤ ·)) (hlast : cut.getLast? = some n)
    (hl : Lexsort w fails allocFails args ⟨.array cid, .array idx, kind⟩ h h' o) :
    (Out.Raises o ∧ ((∃ j, fails j = true) ∨ ¬ Usable h (keysOf args))) ∨
      ∃ ix, o = .sorted idx ix ∧ (h'.arr idx).HoldsInts w (ix.map Int.ofNat) ∧ ∀ t, t < cut.length →
        IsStableArgsort (RowBefore (cs.map fun c => (c.slice (cutLo cut t) (cutHi cut t)).before)) id
          (cutHi cut t - cutLo cut t) ((ix.drop (cutLo cut t)).take (cutHi cut t - cutLo cut t)) := by
  have hn63 : n < 2 ^ 63 := by
    rcases hw with rfl | rfl
    · exact Nat.lt_trans hn (by decide)
    · exact hn
  rcases prepared (fails := fails) (forall₂_imp (fun _ _ k => k.raw) hk) hne with ⟨h1, e, hr⟩ | ⟨h1, is, ob, e, k1, k2, k3, k4, k5, g⟩
  · cases hl with
    | fault hp' => rw [e] at hp'; cases hp'
    | null hp' => exact Or.inl ⟨Or.inr rfl, hr⟩
    | body hp' => rw [e] at hp'; cases hp'
  · have hck : checks w is ⟨.array cid, .array idx, kind⟩ h1 = .inr (some (cut.map Int.ofNat), ⟨some idx, ix0.length, .given (ix0.map Int.ofNat)⟩) := by
      unfold checks
      rw [k2, k3, cutoffs_given (g.2 cid hcid) hi ht hlast]
      simp only [plan_given (g.2 idx hidx) hi0 ht0 (by omega) (Nat.le_of_eq h0')]
    cases hl with
    | fault hp' => rw [e] at hp'; cases hp'
    | null hp' => rw [e] at hp'; cases hp'
    | @body h1' h2 is' _ hp' hb =>
      rw [e] at hp'
      cases hp'
      cases hb with
      | stop h2 => rw [hck] at h2; cases h2
      | noPrototype h2 h3 => rw [hck] at h2; cases h2; cases h3
      | noMemory h2 h3 => rw [hck] at h2; cases h2; cases h3
      | fresh a h2 h3 => rw [hck] at h2; cases h2; cases h3
      | @inPlace _ p o' cs' jx ix h2 h3 h7 h8 h9 =>
        rw [hck] at h2
        cases h2
        cases h3
        obtain rfl := (k1 _).1 h7
        obtain ⟨c, hc1, hrun⟩ := h9
        rw [naturals_ofNat] at hc1
        cases hc1
        have hlen0 : jx.length = n := by rw [← h0']; exact h8.1
        obtain ⟨hlen, hst⟩ := (C25_cutoffs_partial cs' cut jx n hc hn63 hasc hlast hlen0).2 ix hrun
        refine Or.inr ⟨ix, rfl, ?_, hst⟩
        rw [(freeInfo_frame is _).1]
        have : ((h1.incref idx).store idx w ix).arr idx = { h1.arr idx with mem := storeInts w ix (h1.arr idx).mem } := by
          show Function.update h1.arr idx { h1.arr idx with mem := storeInts w ix (h1.arr idx).mem } idx = _
          rw [Function.update_self]
        rw [this, g.2 idx hidx]
        refine holds_stored ?_ hi0.2.1 hi0.2.2.1 (by omega) fun i hi => ?_
        · rw [hi0.1, List.length_map, h0', hlen]
        · obtain ⟨p, hp, rfl⟩ := List.getElem_of_mem hi
          obtain ⟨t, ht1, ht2, ht3⟩ : ∃ t, t < cut.length ∧ cutLo cut t ≤ p ∧ p < cutHi cut t := by
            rw [hlen] at hp
            exact ValidCut.cover ⟨hasc, hlast⟩ hp
          have hmem : ix[p] ∈ (ix.drop (cutLo cut t)).take (cutHi cut t - cutLo cut t) := by
            refine List.mem_iff_getElem?.2 ⟨p - cutLo cut t, ?_⟩
            rw [List.getElem?_take, if_pos (by omega), List.getElem?_drop, show cutLo cut t + (p - cutLo cut t) = p by omega]
            exact List.getElem?_eq_getElem hp
          have h10 := List.mem_range.1 ((hst t ht1).1.mem_iff.1 hmem)
          have h11 : cutHi cut t ≤ n := ValidCut.hi_le ⟨hasc, hlast⟩ ht1
          omega
      | negative h2 => rw [hck] at h2; cases h2
      | @sortFault _ p cs' jx h2 h3 h4 h5 =>
        rw [hck] at h2
        cases h2
        obtain rfl := (k1 _).1 h3
        exfalso
        apply h5
        obtain ⟨ix, hix⟩ := (C25_cutoffs_partial cs' cut jx n hc hn63 hasc hlast (by rw [← h0']; exact h4.1)).1
        exact ⟨ix, cut, naturals_ofNat cut, hix⟩

/-- **C66, violated**: `index=` with fewer entries than there are rows is accepted together with `cutoffs=` (which must end with the number of rows):
the preparation writes one entry per row, behind the end of the index array; every such call with usable keys is a fault. -/
theorem C66_short_index_cutoffs_violated (w : Nat) (args : List PyObj) (kind : Option (List Char))
    (h h' : Heap) (o : Out) (n : Nat) (cs : List Col) (hk : List.Forall₂ (KeyIs h n) (keysOf args) cs) (hne : keysOf args ≠ []) (hu : Usable h (keysOf args))
    (idx : Nat) (hidx : idx < h.next) (ix0 : List Nat) (hi0 : (h.arr idx).HoldsInts w (ix0.map Int.ofNat)) (ht0 : IndexType w (h.arr idx).dtype)
    (h0 : 0 < ix0.length) (h0' : ix0.length < n)
    (cid : Nat) (hcid : cid < h.next) (cut : List Nat) (hi : (h.arr cid).HoldsInts 8 (cut.map Int.ofNat)) (ht : IndexType 8 (h.arr cid).dtype)
    (hlast : cut.getLast? = some n)
    (hl : Lexsort w (fun _ => false) false args ⟨.array cid, .array idx, kind⟩ h h' o) : o = .fault := by
  rcases prepared (fails := fun _ => false) (forall₂_imp (fun _ _ k => k.raw) hk) hne with ⟨h1, e, hr⟩ | ⟨h1, is, ob, e, k1, k2, k3, k4, k5, g⟩
  · rcases hr with ⟨_, hr⟩ | hr
    · cases hr
    · exact absurd hu hr
  · have hck : checks w is ⟨.array cid, .array idx, kind⟩ h1 = .inr (some (cut.map Int.ofNat), ⟨some idx, ix0.length, .given (ix0.map Int.ofNat)⟩) := by
      unfold checks
      rw [k2, k3, cutoffs_given (g.2 cid hcid) hi ht hlast]
      simp only [plan_given (g.2 idx hidx) hi0 ht0 h0 (Nat.le_of_lt h0')]
    have hnone : ∀ jx : List Nat, jx.length = ix0.length → prep cut jx = none := by
      intro jx hj
      obtain ⟨tot, t1, t2, _⟩ := prepLoop_none cut jx 0 0 n (by omega) hlast
      rw [prep, t1]
      omega
    cases hl with
    | fault hp' => rfl
    | null hp' => rw [e] at hp'; cases hp'
    | @body h1' h2 is' _ hp' hb =>
      rw [e] at hp'
      cases hp'
      cases hb with
      | stop h2 => rw [hck] at h2; cases h2
      | noPrototype h2 h3 => rfl
      | noMemory h2 h3 => rw [hck] at h2; cases h2; cases h3
      | fresh a h2 h3 => rw [hck] at h2; cases h2; cases h3
      | inPlace h2 h3 h7 h8 h9 =>
        rw [hck] at h2
        cases h2
        obtain ⟨c, hc1, jx, hrun, _⟩ := h9
        rw [naturals_ofNat] at hc1
        cases hc1
        rw [hnone _ h8.1] at hrun
        cases hrun
      | negative h2 => rfl
      | sortFault h2 => rfl

/-- **C64, violated**: a 0-d array as first key makes lexsort read through the missing strides; every such call crashes, whatever the keywords. -/
theorem C64_zero_dim_violated (w : Nat) (fails : Nat → Bool) (allocFails : Bool) (kw : Kw) (h h' : Heap) (o : Out) (id : Nat) (rest : List PyObj)
    (hd : (h.arr id).dims = []) (hs : (h.arr id).strides = []) (hl : Lexsort w fails allocFails (.array id :: rest) kw h h' o) : o = .fault := by
  have e : ∃ is, buildLoop fails 0 (.array id :: rest) [] h = (h, is, .fault) := by
    unfold buildLoop addArray ensureContiguous
    have : (h.arr id).contiguous = true := by unfold Arr.contiguous; rw [hd, hs]; rfl
    simp only [this, if_true, hs]
    exact ⟨_, rfl⟩
  obtain ⟨is, e⟩ := e
  have hp : prepare fails (.array id :: rest) h = (h, .fault) := by
    unfold prepare buildArrayInfo
    simp only
    rw [e]
  cases hl with
  | fault => rfl
  | null hp' => rw [hp] at hp'; cases hp'
  | body hp' => rw [hp] at hp'; cases hp'

/-- **C64, violated**: `lexsort(None)` crashes, and without any key memory outside the allocation is read. -/
theorem C64_none_violated (w : Nat) (fails : Nat → Bool) (allocFails : Bool) (h h' : Heap) (o : Out) :
    (Lexsort w fails allocFails [.none] noKw h h' o → o = .fault) ∧
    (Lexsort w fails allocFails [.list []] noKw h h' o → o = .fault) ∧ (Lexsort w fails allocFails [] noKw h h' o → o = .fault) := by
  refine ⟨fun hl => ?_, fun hl => ?_, fun hl => ?_⟩
  · cases hl with
    | fault => rfl
    | null hp' => cases hp'
    | body hp' hb =>
      cases hp'
      have hck : checks w [⟨none, none, 0, 0, 0, 0⟩] noKw h = .inr (none, ⟨none, 0, .arange⟩) := rfl
      cases hb with
      | stop h2 => cases hck.symm.trans h2
      | noPrototype => rfl
      | noMemory _ _ h3 => cases h3
      | fresh _ _ _ h3 => cases h3
      | inPlace h2 h3 => cases hck.symm.trans h2; cases h3
      | negative => rfl
      | sortFault => rfl
  · cases hl with
    | fault => rfl
    | null hp' => cases hp'
    | body hp' => cases hp'
  · cases hl with
    | fault => rfl
    | null hp' => cases hp'
    | body hp' => cases hp'

/-- A heap with one array. -/
def oneArray (a : Arr) : Heap := ⟨fun _ => a, fun id => if id = 0 then 1 else 0, 1⟩

/-- The big-endian uint16 array with the elements 1 and 256. -/
def bigEndianPair : Arr := ⟨[2], [2], 2, 4, true, fun p => if p = 1 ∨ p = 2 then 1 else 0⟩

theorem bigEndianPair_denotes : bigEndianPair.Denotes 2 (.num .u16 [1#16, 256#16]) :=
  ⟨2, .num .u16, rfl, rfl, rfl, fun _ h => by cases h; rfl, rfl⟩

/-- **C65, violated** for non-native byte order: the big-endian array [1, 256] is in order, but both lexsort functions answer [1, 0]. -/
theorem C65_byte_order_violated (w : Nat) (hw : w = 4 ∨ w = 8) : bigEndianPair.Denotes 2 (.num .u16 [1#16, 256#16]) ∧
    (Col.num .u16 [1#16, 256#16]).before 0 1 ∧
    (∃ h' r ix, Lexsort w (fun _ => false) false [.array 0] noKw (oneArray bigEndianPair) h' (.sorted r ix)) ∧
    ∀ h' r ix, Lexsort w (fun _ => false) false [.array 0] noKw (oneArray bigEndianPair) h' (.sorted r ix) → ix = [1, 0] := by
  have hraw : List.Forall₂ (KeyRaw (oneArray bigEndianPair) 2) [.array 0] [.num .u16 [256#16, 1#16]] :=
    .cons ⟨0, rfl, by decide, ⟨2, .num .u16, rfl, rfl, rfl, fun _ h => by cases h; rfl, rfl⟩, by decide⟩ .nil
  have hgood : ∀ c ∈ [Col.num .u16 [256#16, 1#16]], c.Good ∧ c.rows = 2 := by
    intro c hc
    rw [List.mem_singleton.1 hc]
    exact ⟨⟨(fun h => nomatch h), fun x _ h => nomatch h⟩, rfl⟩
  have hstr : (∃ c ∈ [Col.num .u16 [256#16, 1#16]], Col.isStr c) → 2 < 65536 := fun _ => by decide
  refine ⟨bigEndianPair_denotes, by show before .u16 (1 : BitVec DT.u16.bits) (256 : BitVec DT.u16.bits); decide, ?_, ?_⟩
  · obtain ⟨ix, hix⟩ := (C24_lexsort_partial [Col.num .u16 [256#16, 1#16]] 2 hgood (by decide) hstr).1
    refine ⟨_, _, ix, .body (h1 := oneArray bigEndianPair) (is := [⟨some 0, none, 2, 2, 4, 1⟩]) rfl
      (.fresh (o := 0) (p := ⟨none, 2, .arange⟩) (cut := none) (ix0 := List.range 2) ⟨[2], [(w : Int)], w, 7, false, fun _ => 0⟩ rfl rfl rfl rfl
      ⟨rfl, rfl, rfl, rfl⟩ (cs := [.num .u16 [256#16, 1#16]]) rfl ⟨rfl, fun _ => rfl⟩ hix)⟩
  · intro h' r ix hl
    rcases lexsort_raw w (by omega) _ _ _ _ _ _ _ 2 _ hraw (by simp [keysOf]) (Or.inl rfl) hgood
      (by rcases hw with rfl | rfl <;> decide) (by decide) hstr hl with ⟨h | h, _⟩ | ⟨r', ix', e, _, _, h⟩
    · cases h
    · cases h
    · cases e
      have h2 : IsStableArgsort (RowBefore ([Col.num .u16 [256#16, 1#16]].map Col.before)) id 2 [1, 0] := by
        refine ⟨by decide, ?_⟩
        rw [List.pairwise_cons]
        refine ⟨fun j hj => ?_, by simp⟩
        rw [List.mem_singleton.1 hj]
        have b : (Col.num .u16 [256#16, 1#16]).before 1 0 := by show before .u16 (1 : BitVec DT.u16.bits) (256 : BitVec DT.u16.bits); decide
        have b' : ¬ (Col.num .u16 [256#16, 1#16]).before 0 1 := by show ¬ before .u16 (256 : BitVec DT.u16.bits) (1 : BitVec DT.u16.bits); decide
        exact ⟨fun h => by rcases h with h | ⟨_, h⟩; exact h; exact b' h, fun h => absurd (Or.inr ⟨id, b⟩) h⟩
      refine (h.1.trans h2.1.symm).eq_of_pairwise (fun i j _ _ h3 h4 => ?_) h.2 h2.2
      have h5 := h3.2 h4.1
      have h6 := h4.2 h3.1
      omega

/-- A heap with a uint8 key [5, 3] (object 0) and a second array (object 1). -/
def keyAnd (a : Arr) : Heap :=
  ⟨fun id => if id = 0 then ⟨[2], [1], 1, 2, false, fun p => if p = 0 then 5 else 3⟩ else a, fun id => if id < 2 then 1 else 0, 2⟩

theorem insert2 {α} (cmp : α → α → Option Bool) (x y : α) :
    insertLoop cmp 0 2 [x, y] 1 = (cmp y x).map fun b => if b then [y, x] else [x, y] := by
  have e : shiftLoop cmp y 0 [x, y] 1 = (cmp y x).map fun b => if b then ([x, x], 0) else ([x, y], 1) := by
    rw [shiftLoop, if_pos (by decide)]
    cases h : cmp y x with
    | none => simp [h]
    | some b =>
      cases b
      · simp [h]
      · simp [h, put]
        rw [shiftLoop, if_neg (by decide)]
  rw [insertLoop, if_pos (by decide)]
  simp only [List.getElem?_cons_succ, List.getElem?_cons_zero]
  have fin : ∀ l : List α, insertLoop cmp 0 2 l 2 = some l := fun l => by rw [insertLoop, if_neg (by decide)]
  cases h : cmp y x with
  | none => rw [h] at e; simp [e]
  | some b => rw [h] at e; cases b <;> simp [e, put, fin]

theorem merge2 {v : List (BitVec DT.u8.bits)} (x y : Nat) (w : List Nat) :
    passSerial .merge (.num .u8 v) [x, y] w = (indirect (opsArg .u8).lt v y x).map fun b => if b then [y, x] else [x, y] := by
  have : amergesort0 (opsArg .u8) v [x, y] w 0 2 0 = (insertLoop (indirect (opsArg .u8).lt v) 0 2 [x, y] 1).bind fun a => some (a, w) := by
    rw [amergesort0, if_neg (by decide)]; rfl
  simp only [passSerial, argsortSerial, argsortFn, List.length_cons, List.length_nil, Nat.zero_add, Nat.reduceAdd, this, insert2]
  cases indirect (opsArg .u8).lt v y x <;> rfl

theorem bad_index : ¬ ∃ ix, Passes .merge [.num .u8 [5#8, 3#8]] [0, 5] ix := by
  rintro ⟨ix, h⟩
  cases h with
  | cons h1 h2 =>
    cases h1 with
    | serial _ _ _ w hw h =>
      rw [merge2] at h
      cases h
    | threaded _ _ _ _ _ hn => exact absurd hn (by decide)

/-- **C66, violated**: an empty `index=` array is accepted, but then the row numbers are never set: the sort starts from uninitialised memory,
and one possible outcome is a read outside the keys. -/
theorem C66_empty_index_violated (w : Nat) : Lexsort w (fun _ => false) false [.array 0] ⟨.absent, .array 1, none⟩
    (keyAnd ⟨[0], [4], 4, 5, false, fun _ => 0⟩) (keyAnd ⟨[0], [4], 4, 5, false, fun _ => 0⟩) .fault :=
  .body (h1 := keyAnd ⟨[0], [4], 4, 5, false, fun _ => 0⟩) (is := [⟨some 0, none, 1, 2, 2, 1⟩]) rfl
    (.sortFault (p := ⟨none, 2, .uninitialised⟩) (cut := none) (cs := [.num .u8 [5#8, 3#8]]) (ix0 := [0, 5]) rfl rfl ⟨rfl, fun _ => trivial⟩ bad_index)

/-- **C66, violated**: row numbers in `index=` are not checked: lexsort64 with index [0, 5] on two rows reads outside the keys. -/
theorem C66_index_range_violated (h' : Heap) (o : Out)
    (hl : Lexsort 8 (fun _ => false) false [.array 0] ⟨.absent, .array 1, none⟩ (keyAnd ⟨[2], [8], 8, 7, false, fun p => if p = 8 then 5 else 0⟩) h' o) :
    o = .fault := by
  cases hl with
  | fault => rfl
  | null hp' => cases hp'
  | body hp' hb =>
    cases hp'
    have hck : checks 8 [⟨some 0, none, 1, 2, 2, 1⟩] ⟨.absent, .array 1, none⟩ (keyAnd ⟨[2], [8], 8, 7, false, fun p => if p = 8 then 5 else 0⟩) =
      .inr (none, ⟨some 1, 2, .given [0, 5]⟩) := rfl
    cases hb with
    | stop h2 => cases hck.symm.trans h2
    | noPrototype => rfl
    | noMemory h2 h3 => cases hck.symm.trans h2; cases h3
    | fresh _ h2 h3 => cases hck.symm.trans h2; cases h3
    | inPlace h2 h3 h7 h8 h9 =>
      cases hck.symm.trans h2
      have := h8.2 rfl
      cases this
      cases (List.map_injective_iff.2 (Option.some_injective _) (show [Col.num .u8 [5#8, 3#8]].map some = _ from h7))
      exact absurd ⟨_, h9⟩ bad_index
    | negative => rfl
    | sortFault => rfl

/-- The view `base[::2]` of an int32 array: the elements 0 and 1, with another 1 between them. -/
def stridedIndex : Arr := ⟨[2], [8], 4, 5, false, fun p => if p = 4 ∨ p = 8 then 1 else 0⟩

/-- **C66, violated**: a strided `index=` view is used as if it were packed: lexsort32 of the key [5, 3] with the view [0, 1] writes its second row
number beside the view, and the view then holds 1 and 1. -/
theorem C66_strided_index_violated : ∃ h', Lexsort 4 (fun _ => false) false [.array 0] ⟨.absent, .array 1, none⟩ (keyAnd stridedIndex) h' (.sorted 1 [1, 0]) ∧
    littleEndian (h'.arr 1).mem 0 4 = 1 ∧ littleEndian (h'.arr 1).mem 8 4 = 1 ∧ (h'.arr 1).dims = [2] ∧ (h'.arr 1).strides = [8] := by
  refine ⟨_, .body (h1 := keyAnd stridedIndex) (is := [⟨some 0, none, 1, 2, 2, 1⟩]) rfl
    (.inPlace (p := ⟨some 1, 2, .given [0, 1]⟩) (cut := none) (cs := [.num .u8 [5#8, 3#8]]) (ix0 := [0, 1]) rfl rfl rfl
      ⟨rfl, fun _ => rfl⟩ (.cons (ix' := [1, 0]) (.serial _ _ _ [0] rfl (merge2 0 1 [0])) (.nil _))), ?_, ?_, rfl, rfl⟩
  · decide +kernel
  · decide +kernel

/-- Non-vacuity of C63-C66: a reversed view of [5, 3] as key. -/
def reversedPair : Arr := ⟨[2], [-1], 1, 2, false, fun p => if p = 0 then 3 else if p = -1 then 5 else 0⟩

theorem reversedPair_case : Sane (oneArray reversedPair) [.array 0] noKw ∧ reversedPair.Denotes 2 (.num .u8 [3#8, 5#8]) ∧
    Usable (oneArray reversedPair) [.array 0] ∧
    List.Forall₂ (KeyIs (oneArray reversedPair) 2) (keysOf [.list [.array 0]]) [.num .u8 [3#8, 5#8]] ∧
    (∀ c ∈ [Col.num .u8 [3#8, 5#8]], c.Good ∧ c.rows = 2) ∧ reversedPair.contiguous = false := by
  have hd : reversedPair.Denotes 2 (.num .u8 [3#8, 5#8]) := ⟨-1, .num .u8, rfl, rfl, rfl, fun _ h => by cases h; rfl, rfl⟩
  refine ⟨⟨fun id h => ?_, fun id h => ?_, fun id h => nomatch h⟩, hd, ⟨2, fun x hx => ?_⟩, .cons ⟨0, rfl, by decide, hd, rfl, by decide⟩ .nil, ?_, by decide⟩
  · have : 1 ≤ id := h
    show (if id = 0 then (1 : Int) else 0) = 0
    rw [if_neg (by omega)]
  · simp [keysOf] at h; subst h; decide
  · rw [List.mem_singleton.1 hx]
    exact ⟨0, rfl, ⟨-1, ⟨rfl, rfl⟩, Or.inl (by decide)⟩, by decide⟩
  · intro c hc
    rw [List.mem_singleton.1 hc]
    exact ⟨⟨(fun h => nomatch h), fun x _ h => nomatch h⟩, rfl⟩

/-- Non-vacuity of C66: the packed int32 array [1, 0] as `index=`, the packed int64 array [1, 2] as `cutoffs=`
(of two rows; for three rows it is refused). -/
example : (Arr.mk [2] [4] 4 5 false fun p => if p = 0 then 1 else 0).HoldsInts 4 ([1, 0].map Int.ofNat) ∧
    (Arr.mk [2] [8] 8 7 false fun p => if p = 0 then 1 else if p = 8 then 2 else 0).HoldsInts 8 ([1, 2].map Int.ofNat) ∧
    IndexType 4 5 ∧ IndexType 8 7 ∧ [1, 2].Pairwise (· ≤ ·) ∧ [1, 2].getLast? = some 2 ∧ ([1, 2].map Int.ofNat).getLast? = some 2 ∧ (2 : Int) ≠ (3 : Nat) := by
  refine ⟨⟨rfl, rfl, rfl, fun i x hx => ?_⟩, ⟨rfl, rfl, rfl, fun i x hx => ?_⟩, Or.inl ⟨rfl, rfl⟩, Or.inr ⟨rfl, Or.inl rfl⟩, by decide, rfl, rfl, by decide⟩
  · match i, hx with
    | 0, hx => cases hx; rfl
    | 1, hx => cases hx; rfl
  · match i, hx with
    | 0, hx => cases hx; rfl
    | 1, hx => cases hx; rfl

/-- Cases of C63 to C65: `lexsort(reversedPair)` returns [0, 1], gives its new array one reference and raises nothing. -/
example : ∃ h' r ix, Lexsort 8 (fun _ => false) false [.array 0] noKw (oneArray reversedPair) h' (.sorted r ix) ∧
    IsStableArgsort (RowBefore [(Col.num .u8 [3#8, 5#8]).before]) id 2 ix ∧ h'.refs r = (oneArray reversedPair).refs r + 1 := by
  obtain ⟨c1, _, c3, c4, c5, _⟩ := reversedPair_case
  have hs : (∃ c ∈ [Col.num .u8 [3#8, 5#8]], Col.isStr c) → 2 < 65536 := fun _ => by decide
  obtain ⟨h', r, ix, hl⟩ := C65_finishes 8 [.array 0] none _ 2 _ c4 (by simp [keysOf]) (Or.inl rfl) c3 c5 (by decide) hs
  refine ⟨h', r, ix, hl, ?_, ?_⟩
  · rcases C65_views_partial 8 (Or.inr rfl) _ _ [.array 0] none _ h' _ 2 _ c4 (by simp [keysOf]) (Or.inl rfl) c5 (by decide) hs hl with h | ⟨r', ix', e, _, _, h⟩
    · exact absurd h.1 (by simp [Out.Raises])
    · cases e; exact h
  · have := (C63_references 8 _ _ _ _ _ h' _ c1 hl (by simp)).1 r
    simpa [Out.object] using this

/-- `pn.lexsort(reversedPair)` (lexsort32) agrees with numpy. -/
example (h' : Heap) (o : Out) (hl : Lexsort 4 (fun _ => false) false [.array 0] noKw (oneArray reversedPair) h' o) :
    pyLexsort (fun _ ix => ix) (.value [0, 1]) o = .value [0, 1] := by
  obtain ⟨_, _, _, c4, c5, _⟩ := reversedPair_case
  refine C65_pn_lexsort_partial _ _ [.array 0] none _ h' _ 2 _ c4 (by simp [keysOf]) (Or.inl rfl) c5 (by decide) (fun _ => by decide) [0, 1] ⟨by decide, ?_⟩ hl
  refine List.pairwise_cons.2 ⟨fun j hj => ?_, by simp⟩
  rw [List.mem_singleton.1 hj]
  refine ⟨?_, fun _ => by decide⟩
  simp [RowBefore, Col.before, before, value, Value.lt]
  decide

/-- The key `reversedPair` (elements 3, 5), the int32 array [1, 0] as object 1, the int64 array [1, 2] as object 2 and the int32 array [0] as object 3. -/
def keyIndexCut : Heap := ⟨fun id => if id = 0 then reversedPair else
    if id = 1 then Arr.mk [2] [4] 4 5 false fun p => if p = 0 then 1 else 0 else
    if id = 2 then Arr.mk [2] [8] 8 7 false fun p => if p = 0 then 1 else if p = 8 then 2 else 0 else
    Arr.mk [1] [4] 4 5 false fun _ => 0, fun id => if id < 4 then 1 else 0, 4⟩

theorem keyIndexCut_case : List.Forall₂ (KeyIs keyIndexCut 2) (keysOf [.array 0]) [.num .u8 [3#8, 5#8]] ∧ Usable keyIndexCut [.array 0] ∧
    (keyIndexCut.arr 1).HoldsInts 4 ([1, 0].map Int.ofNat) ∧ (keyIndexCut.arr 2).HoldsInts 8 ([1, 2].map Int.ofNat) ∧
    (keyIndexCut.arr 3).HoldsInts 4 ([0].map Int.ofNat) := by
  have hd : reversedPair.Denotes 2 (.num .u8 [3#8, 5#8]) := ⟨-1, .num .u8, rfl, rfl, rfl, fun _ h => by cases h; rfl, rfl⟩
  refine ⟨.cons ⟨0, rfl, by decide, hd, rfl, by decide⟩ .nil, ⟨2, fun x hx => ?_⟩, ⟨rfl, rfl, rfl, fun i x hx => ?_⟩,
    ⟨rfl, rfl, rfl, fun i x hx => ?_⟩, ⟨rfl, rfl, rfl, fun i x hx => ?_⟩⟩
  · rw [List.mem_singleton.1 hx]
    exact ⟨0, rfl, ⟨-1, ⟨rfl, rfl⟩, Or.inl (by decide)⟩, by decide⟩
  · match i, hx with
    | 0, hx => cases hx; rfl
    | 1, hx => cases hx; rfl
  · match i, hx with
    | 0, hx => cases hx; rfl
    | 1, hx => cases hx; rfl
  · match i, hx with
    | 0, hx => cases hx; rfl

/-- Case of C66 with `index=`: lexsort32 of the rows 1, 0 of the key [3, 5] is carried out and stores them in order. -/
example : ∃ h' ix, Lexsort 4 (fun _ => false) false [.array 0] ⟨.absent, .array 1, none⟩ keyIndexCut h' (.sorted 1 ix) ∧
    (h'.arr 1).HoldsInts 4 (ix.map Int.ofNat) ∧ IsStableReorder (RowBefore [(Col.num .u8 [3#8, 5#8]).before]) [1, 0] ix := by
  obtain ⟨c1, c2, c3, _⟩ := keyIndexCut_case
  have c5 := reversedPair_case.2.2.2.2.1
  obtain ⟨h', ix, hl⟩ := C66_index_finishes 4 [.array 0] none _ 2 _ c1 (by simp [keysOf]) (Or.inl rfl) c2 c5 (by decide) 1 (by decide) [1, 0] c3
    (Or.inl ⟨rfl, rfl⟩) (by decide) (by decide) (by decide)
  rcases C66_index_partial 4 (Or.inl rfl) _ _ [.array 0] none _ h' _ 2 _ c1 (by simp [keysOf]) (Or.inl rfl) c5 (by decide) (fun _ => by decide) 1 (by decide)
    [1, 0] c3 (Or.inl ⟨rfl, rfl⟩) (by decide) (by decide) (by decide) hl with h | ⟨ix', e, h1, h2⟩
  · exact absurd h.1 (by simp [Out.Raises])
  · cases e; exact ⟨h', ix, hl, h1, h2⟩

/-- Case of C66 with `cutoffs=` [1, 2]: two partitions of one row each. -/
example : ∃ h' r ix, Lexsort 4 (fun _ => false) false [.array 0] ⟨.array 2, .absent, none⟩ keyIndexCut h' (.sorted r ix) ∧
    (h'.arr r).HoldsInts 4 (ix.map Int.ofNat) ∧
    IsStableArgsort (RowBefore ([Col.num .u8 [3#8, 5#8]].map fun c => (c.slice 1 2).before)) id 1 ((ix.drop 1).take 1) := by
  obtain ⟨c1, c2, _, c4, _⟩ := keyIndexCut_case
  have c5 := reversedPair_case.2.2.2.2.1
  obtain ⟨h', r, ix, hl⟩ := C66_cutoffs_finishes 4 [.array 0] none _ 2 _ c1 (by simp [keysOf]) c2 c5 (by decide) 2 (by decide) [1, 2] c4
    (Or.inr ⟨rfl, Or.inl rfl⟩) (by decide) rfl
  rcases C66_cutoffs_partial 4 (Or.inl rfl) _ _ [.array 0] none _ h' _ 2 _ c1 (by simp [keysOf]) c5 (by decide) 2 (by decide) [1, 2] c4
    (Or.inr ⟨rfl, Or.inl rfl⟩) (by decide) rfl hl with h | ⟨r', ix', e, _, h1, h2⟩
  · exact absurd h.1 (by simp [Out.Raises])
  · cases e; exact ⟨h', r, ix, hl, h1, h2 1 (by decide)⟩

/-- Case of C66 with both. -/
example (h' : Heap) (o : Out) (hl : Lexsort 4 (fun _ => false) false [.array 0] ⟨.array 2, .array 1, none⟩ keyIndexCut h' o) : ∃ ix, o = .sorted 1 ix := by
  obtain ⟨c1, c2, c3, c4, _⟩ := keyIndexCut_case
  rcases C66_index_and_cutoffs_partial 4 (Or.inl rfl) _ _ [.array 0] none _ h' o 2 _ c1 (by simp [keysOf]) reversedPair_case.2.2.2.2.1 (by decide) 1 (by decide) [1, 0] c3
    (Or.inl ⟨rfl, rfl⟩) (by decide) rfl 2 (by decide) [1, 2] c4 (Or.inr ⟨rfl, Or.inl rfl⟩) (by decide) rfl hl with ⟨_, ⟨_, h⟩ | h⟩ | ⟨ix, e, _⟩
  · cases h
  · exact absurd c2 h
  · exact ⟨ix, e⟩

/-- Case of the violation: the one-entry index [0] and the cutoffs [1, 2] for two rows. -/
example (h' : Heap) (o : Out) (hl : Lexsort 4 (fun _ => false) false [.array 0] ⟨.array 2, .array 3, none⟩ keyIndexCut h' o) : o = .fault := by
  obtain ⟨c1, c2, _, c4, c6⟩ := keyIndexCut_case
  exact C66_short_index_cutoffs_violated 4 [.array 0] none _ h' o 2 _ c1 (by simp [keysOf]) c2 3 (by decide) [0] c6
    (Or.inl ⟨rfl, rfl⟩) (by decide) (by decide) 2 (by decide) [1, 2] c4 (Or.inr ⟨rfl, Or.inl rfl⟩) rfl hl

/-- Case of the refusal: the cutoffs [1, 2] of the int64 array for a key of three rows would be refused; an int32 array is refused. -/
example (h' : Heap) (o : Out) (hl : Lexsort 4 (fun _ => false) false [.array 0] ⟨.array 1, .absent, none⟩ keyIndexCut h' o) : Out.Raises o :=
  C66_bad_cutoffs_refused 4 _ _ [.array 0] none _ _ h' o 2 _ keyIndexCut_case.1 (by simp [keysOf]) 1 (by decide) (Or.inl ⟨by decide, by decide⟩) hl

end Pnumpy.Props
