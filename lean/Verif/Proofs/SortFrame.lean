import Verif.Proofs.SortMem
/-
Rearrangements inside a window of an array.
-/
namespace Pnumpy.Sort
variable {α : Type}

/-- `a'` is a rearrangement of `a` inside `[lo, hi)`: nothing outside changes, and whatever stands inside
stood inside. -/
structure Frame (lo hi : Nat) (a' a : List α) : Prop where
  len : a'.length = a.length
  perm : a'.Perm a
  out : ∀ p, ¬ (lo ≤ p ∧ p < hi) → a'[p]? = a[p]?
  inn : ∀ p, lo ≤ p → p < hi → ∃ q, lo ≤ q ∧ q < hi ∧ a'[p]? = a[q]?

theorem Frame.refl (lo hi : Nat) (a : List α) : Frame lo hi a a :=
  ⟨rfl, List.Perm.refl _, fun _ _ => rfl, fun p h1 h2 => ⟨p, h1, h2, rfl⟩⟩

theorem Frame.trans {lo hi : Nat} {a b c : List α} (h1 : Frame lo hi a b) (h2 : Frame lo hi b c) : Frame lo hi a c :=
  ⟨h1.len.trans h2.len, h1.perm.trans h2.perm, fun p hp => (h1.out p hp).trans (h2.out p hp), fun p hp hq => by
    obtain ⟨q, a1, a2, a3⟩ := h1.inn p hp hq
    obtain ⟨r, b1, b2, b3⟩ := h2.inn q a1 a2
    exact ⟨r, b1, b2, a3.trans b3⟩⟩

theorem Frame.mono {lo hi lo' hi' : Nat} {a b : List α} (h : Frame lo hi a b) (h1 : lo' ≤ lo) (h2 : hi ≤ hi') :
    Frame lo' hi' a b :=
  ⟨h.len, h.perm, fun p hp => h.out p (by omega), fun p hp hq => by
    by_cases hin : lo ≤ p ∧ p < hi
    · obtain ⟨q, a1, a2, a3⟩ := h.inn p hin.1 hin.2
      exact ⟨q, by omega, by omega, a3⟩
    · exact ⟨p, hp, hq, h.out p hin⟩⟩

theorem Frame.all {lo hi : Nat} {a b : List α} (h : Frame lo hi a b) {P : α → Prop} (hP : ∀ x ∈ b, P x) :
    ∀ x ∈ a, P x := fun x hx => hP x (h.perm.mem_iff.1 hx)

/-- Everything in the window satisfies `P`. -/
def AllIn (P : α → Prop) (lo hi : Nat) (a : List α) : Prop := ∀ p x, lo ≤ p → p < hi → a[p]? = some x → P x

theorem AllIn.mono {P : α → Prop} {lo hi lo' hi' : Nat} {a : List α} (h : AllIn P lo hi a) (h1 : lo ≤ lo') (h2 : hi' ≤ hi) :
    AllIn P lo' hi' a := fun p x hp hq => h p x (by omega) (by omega)

theorem Frame.allIn {lo hi : Nat} {a b : List α} (h : Frame lo hi a b) {P : α → Prop} (hP : AllIn P lo hi b) :
    AllIn P lo hi a := by
  intro p x h1 h2 hx
  obtain ⟨q, a1, a2, a3⟩ := h.inn p h1 h2
  exact hP q x a1 a2 (by rw [← a3]; exact hx)

theorem allIn_of_all {P : α → Prop} {a : List α} (h : ∀ x ∈ a, P x) (lo hi : Nat) : AllIn P lo hi a :=
  fun _ x _ _ hx => h x (List.mem_of_getElem? hx)

theorem allIn_mid {P : α → Prop} {A S B : List α} (h : ∀ x ∈ S, P x) : AllIn P A.length (A.length + S.length) (A ++ S ++ B) := by
  intro p x h1 h2 hx
  rw [List.append_assoc, List.getElem?_append_right h1, List.getElem?_append_left (by omega)] at hx
  exact h x (List.mem_of_getElem? hx)

theorem mem_of_get {a : List α} {i : Nat} {x : α} (h : a[i]? = some x) : x ∈ a := List.mem_of_getElem? h

theorem get_lt {a : List α} {i : Nat} {x : α} (h : a[i]? = some x) : i < a.length := by
  rcases Nat.lt_or_ge i a.length with h1 | h1
  · exact h1
  · rw [List.getElem?_eq_none h1] at h; exact absurd h (by simp)

theorem get_some (a : List α) {i : Nat} (h : i < a.length) : ∃ x, a[i]? = some x := ⟨a[i], List.getElem?_eq_getElem h⟩

theorem put_some {a : List α} {i : Nat} (x : α) (h : i < a.length) : put a i x = some (a.set i x) := if_pos h

theorem get_set (a : List α) (i j : Nat) (x : α) (h : i < a.length) :
    (a.set i x)[j]? = if i = j then some x else a[j]? := by
  rw [List.getElem?_set]
  by_cases hij : i = j
  · rw [if_pos hij, if_pos hij, if_pos (by omega)]
  · rw [if_neg hij, if_neg hij]

theorem set_self {a : List α} {i : Nat} {x : α} (h : a[i]? = some x) : a.set i x = a := by
  apply List.ext_getElem?
  intro j
  rw [get_set a i j x (get_lt h)]
  by_cases hij : i = j
  · rw [if_pos hij, ← hij, h]
  · rw [if_neg hij]

/-- Exchanging two elements. -/
theorem frame_swap {lo hi i j : Nat} {a : List α} {x y : α} (hi1 : lo ≤ i) (hi2 : i < hi) (hj1 : lo ≤ j) (hj2 : j < hi)
    (hx : a[i]? = some x) (hy : a[j]? = some y) : Frame lo hi ((a.set i y).set j x) a := by
  have hil := get_lt hx
  have hjl := get_lt hy
  refine ⟨by simp, ?_, ?_, ?_⟩
  · have := List.set_set_perm (as := a) hil hjl
    rw [List.getElem?_eq_getElem hil] at hx
    rw [List.getElem?_eq_getElem hjl] at hy
    injection hx with hx; injection hy with hy
    rw [hx, hy] at this
    exact this
  · intro p hp
    rw [get_set _ _ _ _ (by simpa using hjl), get_set _ _ _ _ hil]
    rw [if_neg (by rintro rfl; exact hp ⟨hj1, hj2⟩), if_neg (by rintro rfl; exact hp ⟨hi1, hi2⟩)]
  · intro p hp1 hp2
    by_cases h1 : j = p
    · exact ⟨i, hi1, hi2, by rw [get_set _ _ _ _ (by simpa using hjl), if_pos h1, hx]⟩
    · by_cases h2 : i = p
      · exact ⟨j, hj1, hj2, by
          rw [get_set _ _ _ _ (by simpa using hjl), if_neg h1, get_set _ _ _ _ hil, if_pos h2, hy]⟩
      · exact ⟨p, hp1, hp2, by
          rw [get_set _ _ _ _ (by simpa using hjl), if_neg h1, get_set _ _ _ _ hil, if_neg h2]⟩

theorem swap_some {a : List α} {i j : Nat} {x y : α} (hx : a[i]? = some x) (hy : a[j]? = some y) :
    swap a i j = some ((a.set i y).set j x) := by
  unfold swap
  simp only [hx, hy, Option.bind_eq_bind, Option.bind_some, put_some y (get_lt hx)]
  exact put_some x (by simpa using get_lt hy)

/-- A rearrangement of the window, seen as lists. -/
theorem Frame.list {A S B a' : List α} (h : Frame A.length (A.length + S.length) a' (A ++ S ++ B)) :
    ∃ S', a' = A ++ S' ++ B ∧ S'.Perm S := by
  have hlen : a'.length = A.length + S.length + B.length := by rw [h.len]; simp; omega
  refine ⟨(a'.drop A.length).take S.length, ?_, ?_⟩
  · apply List.ext_getElem?
    intro p
    by_cases h1 : p < A.length
    · rw [h.out p (by omega), List.append_assoc, List.append_assoc, List.getElem?_append_left h1,
        List.getElem?_append_left h1]
    · by_cases h2 : p < A.length + S.length
      · rw [List.append_assoc, List.getElem?_append_right (by omega), List.getElem?_append_left (by simp; omega),
          List.getElem?_take_of_lt (by omega), List.getElem?_drop]
        congr 1; omega
      · rw [h.out p (by omega)]
        rw [List.getElem?_append_right (by simp; omega), List.getElem?_append_right (by simp; omega)]
        congr 1; simp; omega
  · have e : a' = A ++ (a'.drop A.length).take S.length ++ B := by
      apply List.ext_getElem?
      intro p
      by_cases h1 : p < A.length
      · rw [h.out p (by omega), List.append_assoc, List.append_assoc, List.getElem?_append_left h1,
          List.getElem?_append_left h1]
      · by_cases h2 : p < A.length + S.length
        · rw [List.append_assoc, List.getElem?_append_right (by omega), List.getElem?_append_left (by simp; omega),
            List.getElem?_take_of_lt (by omega), List.getElem?_drop]
          congr 1; omega
        · rw [h.out p (by omega)]
          rw [List.getElem?_append_right (by simp; omega), List.getElem?_append_right (by simp; omega)]
          congr 1; simp; omega
    have hp := h.perm
    rw [e] at hp
    exact (List.perm_append_left_iff A).1 ((List.perm_append_right_iff B).1 hp)

/-- Ascending, by positions. -/
def AscAt (lt : α → α → Bool) (lo hi : Nat) (a : List α) : Prop :=
  ∀ p q x y, lo ≤ p → p < q → q < hi → a[p]? = some x → a[q]? = some y → lt y x = false

theorem AscAt.list {lt : α → α → Bool} {A S B : List α} (h : AscAt lt A.length (A.length + S.length) (A ++ S ++ B)) :
    Asc lt S := by
  unfold Asc
  rw [List.pairwise_iff_getElem]
  intro i j hi hj hij
  have e : ∀ k (hk : k < S.length), (A ++ S ++ B)[A.length + k]? = some S[k] := by
    intro k hk
    rw [List.append_assoc, List.getElem?_append_right (by omega), List.getElem?_append_left (by omega)]
    rw [show A.length + k - A.length = k by omega]
    exact List.getElem?_eq_getElem hk
  exact h (A.length + i) (A.length + j) _ _ (by omega) (by omega) (by omega) (e i hi) (e j hj)

theorem AscAt.of_list {lt : α → α → Bool} {A S B : List α} (h : Asc lt S) :
    AscAt lt A.length (A.length + S.length) (A ++ S ++ B) := by
  intro p q x y h1 h2 h3 hx hy
  unfold Asc at h
  rw [List.pairwise_iff_getElem] at h
  have e : ∀ k, A.length ≤ k → k < A.length + S.length → (A ++ S ++ B)[k]? = S[k - A.length]? := by
    intro k hk1 hk2
    rw [List.append_assoc, List.getElem?_append_right (by omega), List.getElem?_append_left (by omega)]
  rw [e p h1 (by omega)] at hx
  rw [e q (by omega) h3] at hy
  have hp := get_lt hx
  have hq := get_lt hy
  rw [List.getElem?_eq_getElem hp] at hx
  rw [List.getElem?_eq_getElem hq] at hy
  injection hx with hx; injection hy with hy
  rw [← hx, ← hy]
  exact h _ _ hp hq (by omega)

/-- A list agrees with its window. -/
theorem window (a : List α) {lo hi : Nat} (h1 : lo ≤ hi) (h2 : hi ≤ a.length) :
    ∃ A S B, a = A ++ S ++ B ∧ A.length = lo ∧ S.length = hi - lo :=
  ⟨a.take lo, (a.drop lo).take (hi - lo), (a.drop lo).drop (hi - lo), by rw [List.append_assoc, List.take_append_drop, List.take_append_drop], by simp; omega, by simp; omega⟩

theorem frame_of_list {A S S' B : List α} (h : S'.Perm S) :
    Frame A.length (A.length + S.length) (A ++ S' ++ B) (A ++ S ++ B) := by
  have hl := h.length_eq
  refine ⟨by simp [hl], (h.append_left A).append_right B, ?_, ?_⟩
  · intro p hp
    by_cases h1 : p < A.length
    · rw [List.append_assoc, List.append_assoc, List.getElem?_append_left h1, List.getElem?_append_left h1]
    · rw [List.getElem?_append_right (by simp; omega), List.getElem?_append_right (by simp; omega)]
      congr 1; simp [hl]
  · intro p h1 h2
    have e : ∀ (T : List α) k, A.length ≤ k → k < A.length + T.length → (A ++ T ++ B)[k]? = T[k - A.length]? := by
      intro T k hk1 hk2
      rw [List.append_assoc, List.getElem?_append_right (by omega), List.getElem?_append_left (by omega)]
    rw [e S' p h1 (by omega)]
    have hp : p - A.length < S'.length := by omega
    have hm : S'[p - A.length] ∈ S := h.mem_iff.1 (List.getElem_mem hp)
    obtain ⟨k, hk, hk2⟩ := List.getElem_of_mem hm
    refine ⟨A.length + k, by omega, by omega, ?_⟩
    rw [e S _ (by omega) (by omega), List.getElem?_eq_getElem hp, ← hk2]
    rw [show A.length + k - A.length = k by omega, List.getElem?_eq_getElem hk]

end Pnumpy.Sort
