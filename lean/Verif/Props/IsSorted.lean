import Verif.Proofs.IsSorted
/-
Property theorems C27: the check whether an array is sorted.
-/
namespace Pnumpy.Props
open Spec Pnumpy.Sort Pnumpy.ParSort Pnumpy.Str Pnumpy.IsSorted

theorem Adj.congr {α : Type} {l1 l2 : α → α → Bool} {a : List α} (h : ∀ x ∈ a, ∀ y ∈ a, l1 x y = l2 x y) : Adj l1 a ↔ Adj l2 a := by
  constructor <;> intro H i x y hx hy <;> have := H i x y hx hy <;>
    have e := h x (List.mem_of_getElem? hx) y (List.mem_of_getElem? hy) <;> simp_all

theorem value_cases (a b : Value) : (b = .nan ∨ (a.lt b ∨ a.eq b)) ↔ ¬ (b.lt a ∨ (a = .nan ∧ b ≠ .nan)) := by
  cases a <;> cases b <;> simp [Value.lt, Value.eq]
  omega

theorem bool_ge (x y : BitVec 8) (hx : x.toNat ≤ 1) (hy : y.toNat ≤ 1) : y.sle x = !(x == 0 && y != 0) := by
  have h : ∀ z : BitVec 8, z.toNat ≤ 1 → z = 0 ∨ z = 1 := fun z hz => by
    rcases Nat.lt_or_ge z.toNat 1 with h | h
    · left; apply BitVec.eq_of_toNat_eq; simp; omega
    · right; apply BitVec.eq_of_toNat_eq; simp; omega
  rcases h x hx with rfl | rfl <;> rcases h y hy with rfl | rfl <;> decide

theorem okPair (t : DT) (x y : BitVec t.bits) (hx : t = .bool → x.toNat ≤ 1) (hy : t = .bool → y.toNat ≤ 1) :
    ((ops t).isNaN y || ge t y x) = !(ops t).lt y x := by
  by_cases hb : t = .bool
  · subst hb
    show (false || BitVec.sle (n := 8) x y) = _
    rw [Bool.false_or]
    exact bool_ge y x (hy rfl) (hx rfl)
  · have e : ge t y x = (ops t).le x y := by cases t <;> first | rfl | exact absurd rfl hb
    rw [e, Bool.eq_iff_iff]
    rw [Bool.or_eq_true, ops_isNaN_iff, ops_le_iff, Bool.not_eq_true', Bool.eq_false_iff, ne_eq, ops_lt_iff]
    exact value_cases _ _

theorem ge_nan (t : DT) (x y : BitVec t.bits) (h : ge t y x = true) : (ops t).isNaN x = false ∧ (ops t).isNaN y = false := by
  by_cases hb : t = .bool
  · subst hb; exact ⟨rfl, rfl⟩
  · have e : ge t y x = (ops t).le x y := by cases t <;> first | rfl | exact absurd rfl hb
    rw [e, ops_le_iff] at h
    rw [Bool.eq_false_iff, ne_eq, ops_isNaN_iff, Bool.eq_false_iff, ne_eq, ops_isNaN_iff]
    revert h
    cases value t x <;> cases value t y <;> simp [Value.lt, Value.eq]

theorem numFn_ok (t : DT) (l : List (BitVec t.bits)) (hb : t = .bool → ∀ x ∈ l, x.toNat ≤ 1) :
    ∃ b, numFn t l = some b ∧ (b = true ↔ Adj (fun x y => !(ops t).lt y x) l) := by
  obtain ⟨b, h1, h2⟩ := isSortedFn_ok (ops t).isNaN (fun x y => some (ge t x y)) (ge t) l (fun _ _ _ _ => rfl) (ge_nan t)
  exact ⟨b, h1, h2.trans (Adj.congr fun x hx y hy => okPair t x y (fun e => hb e x hx) (fun e => hb e y hy))⟩

/-- C27: for every numeric or boolean array, every chunking and every interleaving of the threads, the check answers
true exactly for arrays in ascending order, NaNs last; no access leaves the array, and every run can complete. -/
theorem C27_is_sorted (t : DT) (a : List (BitVec t.bits)) (hb : t = .bool → ∀ x ∈ a, x.toNat ≤ 1) :
    (∀ b, IsSorted.Run (numFn t) a b → (b = true ↔ Ascending (before t) a)) ∧
    (∃ b, numFn t a = some b) ∧
    (∀ s, IReach (numFn t) a s → ∃ s', IReach (numFn t) a s' ∧ ∀ k, k < (a.length + 16383) / 16384 → s'.st k = .done) := by
  have hf : ∀ l : List (BitVec t.bits), (∀ x ∈ l, x ∈ a) → ∃ b, numFn t l = some b ∧ (b = true ↔ Adj (fun x y => !(ops t).lt y x) l) :=
    fun l hl => numFn_ok t l (fun e x hx => hb e x (hl x hx))
  refine ⟨fun b hr => ?_, ?_, fun s h => exists_run (fun k => ?_) h⟩
  · rw [run_ok hf hr, adj_iff (opsOk t).swo]
    exact ascending_iff (ops_lt_iff t) a
  · obtain ⟨b, h, _⟩ := hf a (fun _ h => h); exact ⟨b, h⟩
  · obtain ⟨b, h, _⟩ := hf (chunk a k) (fun x hx => List.mem_of_mem_drop (List.mem_of_mem_take hx)); exact ⟨b, h⟩

/-- C27: the same for fixed-width strings (bytes or code points) in lexicographic order. -/
theorem C27_is_sorted_strings {u : Nat} (len : Nat) (a : List (List (BitVec u))) (ha : ∀ s ∈ a, s.length = len) :
    (∀ b, IsSorted.Run (strFn len) a b → (b = true ↔ Ascending LexBefore a)) ∧ (∃ b, strFn len a = some b) ∧
    (∀ s, IReach (strFn len) a s → ∃ s', IReach (strFn len) a s' ∧ ∀ k, k < (a.length + 16383) / 16384 → s'.st k = .done) := by
  have hf : ∀ l : List (List (BitVec u)), (∀ x ∈ l, x ∈ a) →
      ∃ b, strFn len l = some b ∧ (b = true ↔ Adj (fun x y => !lexKey nums y x) l) := by
    intro l hl
    obtain ⟨b, h1, h2⟩ := isSortedFn_ok (fun _ => false) (fun x y => (strLt len x y).map (!·)) (fun x y => !lexKey nums x y) l
      (fun x hx y hy => by rw [computes_str len x y (ha x (hl x hx)) (ha y (hl y hy))]; rfl) (fun _ _ _ => ⟨rfl, rfl⟩)
    exact ⟨b, h1, h2.trans (Adj.congr fun x _ y _ => by simp)⟩
  refine ⟨fun b hr => ?_, ?_, fun s h => exists_run (fun k => ?_) h⟩
  · rw [run_ok hf hr, adj_iff (lexKey_swo _)]
    unfold Ascending
    have : ∀ {x y : List (BitVec u)}, x ∈ a → y ∈ a → (lexKey nums y x = false ↔ ¬ LexBefore y x) := fun {x y} hx hy => by
      rw [lexBefore_iff (by rw [ha x hx, ha y hy])]; simp [lexKey]
    exact List.Pairwise.iff_of_mem fun hx hy => this hx hy
  · obtain ⟨b, h, _⟩ := hf a (fun _ h => h); exact ⟨b, h⟩
  · obtain ⟨b, h, _⟩ := hf (chunk a k) (fun x hx => List.mem_of_mem_drop (List.mem_of_mem_take hx)); exact ⟨b, h⟩

/-- Non-trivial case: [1.0, inf, NaN] is sorted, and the check says so; [NaN, 1.0] is not. -/
example : numFn .f64 [0x3ff0000000000000, 0x7ff0000000000000, 0x7ff8000000000000] = some true ∧
    numFn .f64 [0x7ff8000000000000, 0x3ff0000000000000] = some false := by decide

/-- float16 arrays are checked by their bit patterns: [-1.0, 1.0] is called unsorted. -/
theorem C27_half_violated : halfFn [0xbc00, 0x3c00] = some false ∧
    Ascending (fun x y => (floatValue 5 10 x).lt (floatValue 5 10 y)) [0xbc00#16, 0x3c00#16] :=
  ⟨by decide, by unfold Ascending; decide⟩

/-- A violation that straddles two chunks is found: 65536 ones and a zero at position 16384. -/
example : ∃ s, IReach (numFn .u8) (List.replicate 16384 (1 : BitVec DT.u8.bits) ++ [0]) s ∧
    (∀ t, t < ((List.replicate 16384 (1 : BitVec DT.u8.bits) ++ [0]).length + 16383) / 16384 → s.st t = .done) ∧ s.flag = false := by
  obtain ⟨h1, _, h3⟩ := C27_is_sorted .u8 (List.replicate 16384 (1 : BitVec DT.u8.bits) ++ [0]) (fun h => nomatch h)
  obtain ⟨s, h4, h5⟩ := h3 _ .start
  refine ⟨s, h4, h5, ?_⟩
  have := h1 _ (.threaded s h4 h5)
  cases h : s.flag with
  | false => rfl
  | true =>
    have hp := this.1 h
    have := (List.pairwise_append.1 hp).2.2 1 (List.mem_replicate.2 ⟨by decide, rfl⟩) 0 (List.mem_singleton.2 rfl)
    exact absurd (by decide) this

end Pnumpy.Props
