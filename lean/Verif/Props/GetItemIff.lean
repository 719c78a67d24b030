import Verif.Props.GetItem
/-
Property theorem C31: exactly when fancy indexing with unsigned indices stays inside its memory.
-/
namespace Pnumpy.Props
open Spec Pnumpy.GetItem

/-- **C31, exactly when** (unsigned indices of every width, item sizes 1, 2, 4, 8 and 16, every number of values and indices, serial or with
threads, nothing readable in front of the values): memory outside the values is read if and only if some index has its top bit
set; if none has, the result is right. -/
theorem C31_unsigned_iff_partial (v : Nat → List β) (x : Nat → BitVec w) (rdV : Int → Option (List β)) (rdI : Int → Option Int) (n k isz : Nat)
    (sv si : Int) (dflt : List β) (hV : ∀ i : Nat, i < n → rdV (i * sv) = some (v i)) (hfront : ∀ p, p < 0 → rdV p = none)
    (hI : ∀ j : Nat, j < k → rdI (j * si) = some (x j).toInt) (hlen : ∀ i, i < n → (v i).length = isz) (hd : isz ≤ dflt.length)
    (hisz : isz = 1 ∨ isz = 2 ∨ isz = 4 ∨ isz = 8 ∨ isz = 16) (hsv : 0 < sv) (threaded : Bool) (ht : threaded = false ∨ sv = isz)
    (hk : threaded = true → 65536 ≤ k) [Inhabited β] :
    (IntFault rdV rdI true n k sv si isz dflt threaded ↔ ∃ j, j < k ∧ (x j).msb = true) ∧
    ((∀ j, j < k → (x j).msb = false) → ∀ out', IntResult rdV rdI true n k sv si isz dflt threaded out' →
      out' = (indexSelect v n (dflt.take isz) k fun j => indexValue true (x j)).flatten) := by
  have hgood := fun h => C31_index_partial v x rdV rdI n k isz sv si true dflt hV hI hlen hd (fun _ => ⟨hisz, h⟩) threaded ht
  refine ⟨⟨fun hf => ?_, ?_⟩, fun h => (hgood h).1⟩
  · refine Classical.byContradiction fun hc => (hgood fun j hj => ?_).2.1 hf
    cases hm : (x j).msb with
    | false => rfl
    | true => exact absurd ⟨j, hj, hm⟩ hc
  · rintro ⟨j, hj, hx⟩
    exact C31_unsigned_violated x rdV rdI n k isz sv si dflt threaded hisz hsv hfront hI j hj hx hk

/-- Case: three values, the indices 2, 255 (uint8). -/
example : IntFault (fun p => if 0 ≤ p ∧ p < 3 then some [p.toNat] else none)
    (fun p => if p = 0 then some ((2#8).toInt) else some ((255#8).toInt)) true 3 2 1 1 1 [7] false := by
  refine (C31_unsigned_iff_partial (w := 8) (fun i => [i]) (fun j => if j = 0 then 2#8 else 255#8) _ _ 3 2 1 1 1 [7] ?_ ?_ ?_ ?_ (by decide)
    (Or.inl rfl) (by decide) false (Or.inl rfl) (fun h => nomatch h)).1.2 ⟨1, by decide, by decide⟩
  · intro i hi
    have h : (0 : Int) ≤ (i : Int) * 1 ∧ (i : Int) * 1 < 3 := by omega
    simp only [h, and_self, if_true]
    congr 2; omega
  · intro p hp
    rw [if_neg]; omega
  · intro j hj
    have : j = 0 ∨ j = 1 := by omega
    rcases this with rfl | rfl <;> rfl
  · intro i _; rfl

end Pnumpy.Props
