import Verif.Props.LexIndex
import Verif.Props.LexShort
/-
Property theorem C65: lexsort of views with NaNs (few rows) and float16 keys.
-/
namespace Pnumpy.Props
open Pnumpy.Sort Pnumpy.Lex Pnumpy.LexEntry Spec

/-- **C65 (part)**, for keys that may be float16, or hold NaNs in at most 15 rows: lexsort32 and lexsort64 return a new array with the stable
lexicographic argsort by the keys other than the float16 ones, or raise because memory runs out or a key is not usable. -/
theorem C65_views_wide_partial (w : Nat) (hw : w = 4 ∨ w = 8) (fails : Nat → Bool) (allocFails : Bool) (args : List PyObj) (kind : Option (List Char))
    (h h' : Heap) (o : Out) (n : Nat) (cs : List Col) (hk : List.Forall₂ (KeyIs h n) (keysOf args) cs) (hne : keysOf args ≠ []) (hkind : StableKind kind)
    (hc : ∀ c ∈ cs, c.rows = n ∧ (c.Good ∨ c.isHalf = true ∨ (c.Proper ∧ n ≤ 15))) (hn : n < 2 ^ (8 * w - 1))
    (hs : (∃ c ∈ cs, Col.isStr c) → n < 65536) (hl : Lexsort w fails allocFails args ⟨.absent, .absent, kind⟩ h h' o) :
    (Out.Raises o ∧ ((∃ j, fails j = true) ∨ allocFails = true ∨ ¬ Usable h (keysOf args))) ∨
      ∃ r ix, o = .sorted r ix ∧ h.next ≤ r ∧ (h'.arr r).HoldsInts w (ix.map Int.ofNat) ∧
        IsStableArgsort (RowBefore ((cs.filter fun c => !c.isHalf).map Col.before)) id n ix := by
  have hn' : n < 2 ^ 63 := by
    rcases hw with rfl | rfl
    · exact Nat.lt_trans hn (by decide)
    · exact hn
  have hk' := kind_merge hkind
  have hmain := C24_ignores_half_partial cs n hc hn' hs
  rw [← hk'] at hmain
  rcases lexsort_gen w (by omega) fails allocFails args kind h h' o n cs (forall₂_imp (fun _ _ k => k.raw) hk) hne hmain.1
    (fun ix h => (hmain.2 ix h).1) (Nat.le_of_lt hn) hl with h | ⟨r, ix, h1, h2, h3, h4⟩
  · exact Or.inl h
  · exact Or.inr ⟨r, ix, h1, h2, h3, hmain.2 ix h4⟩

/-- **C65 (part)**: such a call can be carried out. -/
theorem C65_wide_finishes_partial (w : Nat) (args : List PyObj) (kind : Option (List Char)) (h : Heap) (n : Nat) (cs : List Col)
    (hk : List.Forall₂ (KeyIs h n) (keysOf args) cs) (hne : keysOf args ≠ []) (hkind : StableKind kind) (hu : Usable h (keysOf args))
    (hc : ∀ c ∈ cs, c.rows = n ∧ (c.Good ∨ c.isHalf = true ∨ (c.Proper ∧ n ≤ 15))) (hn : n < 2 ^ 63) (hs : (∃ c ∈ cs, Col.isStr c) → n < 65536) :
    ∃ h' r ix, Lexsort w (fun _ => false) false args ⟨.absent, .absent, kind⟩ h h' (.sorted r ix) := by
  rcases prepared (fails := fun _ => false) (forall₂_imp (fun _ _ k => k.raw) hk) hne with ⟨h1, e, hr⟩ | ⟨h1, is, ob, e, k1, k2, k3, k4, k5, g⟩
  · rcases hr with ⟨_, hr⟩ | hr
    · cases hr
    · exact absurd hu hr
  · have hck : checks w is ⟨.absent, .absent, kind⟩ h1 = .inr (none, ⟨none, n, .arange⟩) := by
      unfold checks
      rw [k2, k3]
      rfl
    obtain ⟨ix, hix⟩ := (C24_ignores_half_partial cs n hc hn hs).1
    refine ⟨_, _, ix, .body e (.fresh (ix0 := List.range n) ⟨(h1.arr ob).dims, [(w : Int)], w, 7, false, fun _ => 0⟩ hck rfl k4 rfl
      ⟨rfl, rfl, rfl, rfl⟩ ((k1 cs).2 rfl) ⟨by simp, fun _ => rfl⟩ ?_)⟩
    show Passes (getKind kind) cs (List.range n) ix
    rw [kind_merge hkind]
    exact hix

/-- Case: lexsort64 of the float16 array [1.0, -1.0] and of the float64 array [NaN, NaN]. -/
def halfPair : Arr := ⟨[2], [2], 2, 23, false, fun p => if p = 1 then 0x3c else if p = 3 then 0xbc else 0⟩
def nanPair : Arr := ⟨[2], [8], 8, 12, false, fun p => if p = 6 ∨ p = 14 then 0xf8 else if p = 7 ∨ p = 15 then 0x7f else 0⟩

theorem onePair_case (a : Arr) (c : Col) (hd : a.Denotes 2 c) (hs : a.swapped = false) (hk : KeyType a.dtype) :
    List.Forall₂ (KeyIs (oneArray a) 2) (keysOf [.array 0]) [c] ∧ Usable (oneArray a) [.array 0] := by
  refine ⟨.cons ⟨0, rfl, Nat.lt_succ_self 0, hd, hs, hk⟩ .nil, ⟨2, fun x hx => ?_⟩⟩
  rw [List.mem_singleton.1 hx]
  obtain ⟨s, ct, d1, d2, _⟩ := hd
  exact ⟨0, rfl, ⟨s, ⟨d1, d2⟩, Or.inl (by decide)⟩, hk⟩

example : ∃ h' r, Lexsort 8 (fun _ => false) false [.array 0] noKw (oneArray halfPair) h' (.sorted r [0, 1]) := by
  have hd : halfPair.Denotes 2 (.half [0x3c00#16, 0xbc00#16]) := ⟨2, .half, rfl, rfl, rfl, fun _ h => by cases h; rfl, rfl⟩
  obtain ⟨c1, c2⟩ := onePair_case halfPair _ hd rfl (by decide)
  have hc : ∀ c ∈ [Col.half [0x3c00#16, 0xbc00#16]], c.rows = 2 ∧ (c.Good ∨ c.isHalf = true ∨ (c.Proper ∧ 2 ≤ 15)) := by
    intro c hc
    rw [List.mem_singleton.1 hc]
    exact ⟨rfl, Or.inr (Or.inl rfl)⟩
  obtain ⟨h', r, ix, hl⟩ := C65_wide_finishes_partial 8 [.array 0] none _ 2 _ c1 (by simp [keysOf]) (Or.inl rfl) c2 hc (by decide) (fun _ => by decide)
  rcases C65_views_wide_partial 8 (Or.inr rfl) _ _ [.array 0] none _ h' _ 2 _ c1 (by simp [keysOf]) (Or.inl rfl) hc (by decide) (fun _ => by decide) hl
    with h | ⟨r', ix', e, _, _, h⟩
  · exact absurd h.1 (by simp [Out.Raises])
  · cases e
    have : ix = [0, 1] := (h.1.trans (by decide : (List.range 2).Perm [0, 1])).eq_of_pairwise
      (fun i j _ _ h3 h4 => by have h5 := h3.2 (fun h => h); have h6 := h4.2 (fun h => h); omega) h.2 (by
        refine List.Pairwise.cons (fun j hj => ?_) (List.pairwise_singleton _ _)
        rw [List.mem_singleton.1 hj]
        exact ⟨fun h => h, fun _ => by decide⟩)
    exact ⟨h', r, this ▸ hl⟩

example : ∃ h' r ix, Lexsort 8 (fun _ => false) false [.array 0] noKw (oneArray nanPair) h' (.sorted r ix) := by
  have hd : nanPair.Denotes 2 (.num .f64 [0x7ff8000000000000#64, 0x7ff8000000000000#64]) :=
    ⟨8, .num .f64, rfl, rfl, rfl, fun _ h => by cases h; rfl, rfl⟩
  obtain ⟨c1, c2⟩ := onePair_case nanPair _ hd rfl (by decide)
  exact C65_wide_finishes_partial 8 [.array 0] none _ 2 _ c1 (by simp [keysOf]) (Or.inl rfl) c2 (fun c hc => by
    rw [List.mem_singleton.1 hc]
    exact ⟨rfl, Or.inr (Or.inr ⟨(fun h => nomatch h), by decide⟩)⟩) (by decide) (fun _ => by decide)

end Pnumpy.Props
