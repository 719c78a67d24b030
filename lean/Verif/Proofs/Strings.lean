import Verif.Model.Strings
import Verif.Spec.Strings
import Verif.Props.ParArgSort
import Mathlib.Order.Lex
import Mathlib.Data.List.Lex
/-
Facts about the string comparisons and the sorts that use them.
-/
namespace Pnumpy.Str
open Pnumpy.Sort Pnumpy.ParSort Spec

/-- Compare by a list of numbers. -/
def lexKey {α : Type} (key : α → List Nat) (x y : α) : Bool := decide (key x < key y)

theorem lexKey_swo {α : Type} (key : α → List Nat) : SWO (lexKey key) := by
  refine ⟨fun x y h => ?_, fun x y z h => ?_⟩
  · simp only [lexKey, decide_eq_true_eq, decide_eq_false_iff_not] at h ⊢
    exact lt_asymm h
  · simp only [lexKey, decide_eq_true_eq] at h ⊢
    rcases lt_or_ge (key x) (key y) with h1 | h1
    · exact Or.inl h1
    · exact Or.inr (lt_of_le_of_lt h1 h)

/-- The units of a string as numbers. -/
def nums {u : Nat} (s : List (BitVec u)) : List Nat := s.map BitVec.toNat

theorem strLtLoop_eq {u : Nat} (n : Nat) : ∀ (s t : List (BitVec u)) (len i : Nat), s.length = len → t.length = len →
    n = len - i → i ≤ len → strLtLoop s t len i = some (decide (nums (s.drop i) < nums (t.drop i))) := by
  induction n with
  | zero =>
    intro s t len i hs ht hn hi
    obtain rfl : i = len := by omega
    rw [strLtLoop, if_neg (by omega)]
    rw [List.drop_of_length_le (by omega), List.drop_of_length_le (by omega)]
    simp [nums]
  | succ n ih =>
    intro s t len i hs ht hn hi
    rw [strLtLoop, if_pos (by omega)]
    have h1 : i < s.length := by omega
    have h2 : i < t.length := by omega
    rw [List.getElem?_eq_getElem h1, List.getElem?_eq_getElem h2]
    rw [List.drop_eq_getElem_cons h1, List.drop_eq_getElem_cons h2]
    simp only [Option.bind_eq_bind, Option.bind_some, nums, List.map_cons]
    by_cases he : s[i] = t[i]
    · rw [if_neg (by simp [he]), ih s t len (i + 1) hs ht (by omega) (by omega)]
      rw [he]
      congr 1
      rw [decide_eq_decide]
      simp only [nums, List.cons_lt_cons_iff, lt_irrefl, false_or, true_and]
    · rw [if_pos he]
      have he' : s[i].toNat ≠ t[i].toNat := fun h => he (BitVec.eq_of_toNat_eq h)
      simp only [List.cons_lt_cons_iff, he', false_and, or_false, BitVec.ult]

theorem computes_str {u : Nat} (len : Nat) :
    Computes (strLt (u := u) len) (lexKey nums) (fun s => s.length = len) := by
  intro s t hs ht
  unfold strLt lexKey
  rw [strLtLoop_eq len s t len 0 hs ht (by omega) (by omega)]
  simp

theorem lexBefore_iff {u : Nat} : ∀ {s t : List (BitVec u)}, s.length = t.length → (LexBefore s t ↔ nums s < nums t) := by
  intro s
  induction s with
  | nil =>
    intro t h
    obtain rfl : t = [] := by simpa using h.symm
    simp [LexBefore, nums]
  | cons a s ih =>
    intro t h
    cases t with
    | nil => simp at h
    | cons b t =>
      have hl : s.length = t.length := by simpa using h
      simp only [nums, List.map_cons, List.cons_lt_cons_iff]
      constructor
      · rintro ⟨p, x, y, s', t', h1, h2, h3⟩
        cases p with
        | nil =>
          simp only [List.nil_append, List.cons.injEq] at h1 h2
          rw [h1.1, h2.1]; exact Or.inl h3
        | cons c p =>
          simp only [List.cons_append, List.cons.injEq] at h1 h2
          right
          exact ⟨by rw [h1.1, h2.1], (ih hl).1 ⟨p, x, y, s', t', h1.2, h2.2, h3⟩⟩
      · rintro (h1 | ⟨h1, h2⟩)
        · exact ⟨[], a, b, s, t, rfl, rfl, h1⟩
        · obtain ⟨p, x, y, s', t', e1, e2, e3⟩ := (ih hl).2 h2
          obtain rfl : a = b := BitVec.eq_of_toNat_eq h1
          exact ⟨a :: p, x, y, s', t', by rw [e1]; rfl, by rw [e2]; rfl, e3⟩

theorem nums_inj {u : Nat} {s t : List (BitVec u)} (h : nums s = nums t) : s = t :=
  List.map_injective_iff.2 (fun _ _ h => BitVec.eq_of_toNat_eq h) h

/-! ### Void -/

/-- Sizes of the pieces in which an item of `len` bytes is compared. -/
def sizes (len : Nat) : List Nat := if len > 8 then 8 :: sizes (len - 8) else tailSizes len
termination_by len

/-- The numbers that are compared. -/
def pieces (s : List (BitVec 8)) : List Nat → List Nat
  | [] => []
  | k :: ks => le (s.take k) :: pieces (s.drop k) ks

theorem sizes_sum (len : Nat) : (sizes len).sum = len := by
  induction len using Nat.strongRecOn with
  | _ len ih =>
    rw [sizes]
    split
    · rw [List.sum_cons, ih _ (by omega)]; omega
    · have : len ≤ 8 := by omega
      interval_cases len <;> simp [tailSizes]

theorem le_inj : ∀ {s t : List (BitVec 8)}, s.length = t.length → le s = le t → s = t := by
  intro s
  induction s with
  | nil => intro t h _; symm; simpa using h.symm
  | cons a s ih =>
    intro t h he
    cases t with
    | nil => simp at h
    | cons b t =>
      simp only [le] at he
      have h1 := a.isLt
      have h2 := b.isLt
      have : a = b := BitVec.eq_of_toNat_eq (by omega)
      subst this
      rw [ih (by simpa using h) (by omega)]

theorem pieces_inj : ∀ (ks : List Nat) {s t : List (BitVec 8)}, s.length = ks.sum → t.length = ks.sum →
    pieces s ks = pieces t ks → s = t := by
  intro ks
  induction ks with
  | nil =>
    intro s t hs ht _
    have e1 : s = [] := List.eq_nil_of_length_eq_zero (by simpa using hs)
    have e2 : t = [] := List.eq_nil_of_length_eq_zero (by simpa using ht)
    rw [e1, e2]
  | cons k ks ih =>
    intro s t hs ht h
    simp only [pieces, List.cons.injEq, List.sum_cons] at h hs ht
    rw [← List.take_append_drop k s, ← List.take_append_drop k t]
    rw [le_inj (by simp; omega) h.1, ih (by simp; omega) (by simp; omega) h.2]

theorem rd_eq {s : List (BitVec 8)} {off k : Nat} (h : off + k ≤ s.length) : rd s off k = some (le ((s.drop off).take k)) := by
  rw [rd, if_pos h]

theorem voidTail_eq : ∀ (ks : List Nat) (s t : List (BitVec 8)) (off : Nat), off + ks.sum ≤ s.length →
    off + ks.sum ≤ t.length →
    voidTail s t off ks = some (decide (pieces (s.drop off) ks < pieces (t.drop off) ks)) := by
  intro ks
  induction ks with
  | nil => intro s t off _ _; simp [voidTail, pieces]
  | cons k ks ih =>
    intro s t off hs ht
    rw [List.sum_cons] at hs ht
    rw [voidTail, rd_eq (by omega), rd_eq (by omega)]
    simp only [Option.bind_eq_bind, Option.bind_some, pieces, List.cons_lt_cons_iff]
    by_cases he : le ((s.drop off).take k) = le ((t.drop off).take k)
    · rw [if_neg (by simp [he]), ih s t (off + k) (by omega) (by omega), he]
      simp only [lt_irrefl, false_or, true_and, List.drop_drop]
    · rw [if_pos he]
      simp only [he, false_and, or_false]

theorem voidLtLoop_eq (n : Nat) : ∀ (s t : List (BitVec 8)) (off : Nat), off + n ≤ s.length → off + n ≤ t.length →
    voidLtLoop s t off n = some (decide (pieces (s.drop off) (sizes n) < pieces (t.drop off) (sizes n))) := by
  induction n using Nat.strongRecOn with
  | _ n ih =>
    intro s t off hs ht
    rw [voidLtLoop, sizes]
    by_cases hn : n > 8
    · rw [if_pos hn, if_pos hn, rd_eq (by omega), rd_eq (by omega)]
      simp only [Option.bind_eq_bind, Option.bind_some, pieces, List.cons_lt_cons_iff]
      by_cases he : le ((s.drop off).take 8) = le ((t.drop off).take 8)
      · rw [if_neg (by simp [he]), ih (n - 8) (by omega) s t (off + 8) (by omega) (by omega), he]
        simp only [lt_irrefl, false_or, true_and, List.drop_drop]
      · rw [if_pos he]
        simp only [he, false_and, or_false]
    · rw [if_neg hn, if_neg hn]
      have hsum := sizes_sum n
      rw [sizes, if_neg hn] at hsum
      exact voidTail_eq _ s t off (by omega) (by omega)

theorem computes_void (len : Nat) :
    Computes (voidLt len) (lexKey fun s => pieces s (sizes len)) (fun s => s.length = len) := by
  intro s t hs ht
  unfold voidLt lexKey
  rw [voidLtLoop_eq len s t 0 (by omega) (by omega)]
  simp

/-! ### Serial sorts -/

theorem computes_byIndex {α : Type} [Inhabited α] {cmp : α → α → Option Bool} {lt : α → α → Bool} {P : α → Prop}
    (hc : Computes cmp lt P) (v : List α) (hP : ∀ x ∈ v, P x) :
    Computes (byIndex cmp v) (keyLt lt v) (fun i => i < v.length) := by
  intro i j hi hj
  unfold byIndex keyLt
  rw [List.getElem?_eq_getElem hi, List.getElem?_eq_getElem hj]
  simp only [Option.bind_eq_bind, Option.bind_some, Option.getD_some]
  exact hc _ _ (hP _ (List.getElem_mem hi)) (hP _ (List.getElem_mem hj))

theorem sortStr_ok {α : Type} {cmp : α → α → Option Bool} {lt : α → α → Bool} {P : α → Prop} (hc : Computes cmp lt P)
    (hs : SWO lt) (a w : List α) (hw : w.length = a.length / 2) (hP : ∀ x ∈ a, P x) :
    ∃ a', sortStr cmp a w = some a' ∧ SS lt a' a := by
  obtain ⟨S', W', h1, _, h3⟩ := str_all hc hs true a.length [] a [] [] w [] rfl (by omega) hP
  refine ⟨S', ?_, h1⟩
  unfold sortStr
  simp at h3
  rw [h3]; rfl

theorem argsortStr_ok {α : Type} [Inhabited α] {cmp : α → α → Option Bool} {lt : α → α → Bool} {P : α → Prop}
    (hc : Computes cmp lt P) (hs : SWO lt) (v : List α) (ix w : List Nat) (hw : w.length = ix.length / 2)
    (hP : ∀ x ∈ v, P x) (hix : ∀ i ∈ ix, i < v.length) :
    ∃ ix', argsortStr cmp v ix w = some ix' ∧ SS (keyLt lt v) ix' ix := by
  obtain ⟨S', W', h1, _, h3⟩ := str_all (computes_byIndex hc v hP) (keyLt_swo hs v) false ix.length [] ix [] [] w [] rfl
    (by omega) hix
  refine ⟨S', ?_, h1⟩
  unfold argsortStr
  simp at h3
  rw [h3]; rfl

end Pnumpy.Str
