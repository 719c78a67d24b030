import Verif.Spec.TermsLex
import Verif.Model.LexEntry
import Mathlib.Tactic.SplitIfs
import Mathlib.Logic.Function.Basic
import Mathlib.Data.List.Forall2
/-
Lemmas about collecting the keys of lexsort: reference counts, refusal, contents of packed copies.
-/
namespace Pnumpy.LexEntry
open Pnumpy.Sort Pnumpy.Lex Spec

/-! ### reference counts -/

/-- How many of the infos hold the only reference to a copy `id`. -/
def copies (is : List Info) (id : Nat) : Nat := is.countP fun i => i.orig.isSome && i.obj == some id

theorem copies_append (xs ys : List Info) (id : Nat) : copies (xs ++ ys) id = copies xs id + copies ys id := by
  unfold copies; rw [List.countP_append]

theorem freeInfo_frame (is : List Info) (h : Heap) : (freeInfo is h).arr = h.arr ∧ (freeInfo is h).next = h.next := by
  induction is generalizing h with
  | nil => exact ⟨rfl, rfl⟩
  | cons i is ih =>
    unfold freeInfo
    split
    · rw [(ih _).1, (ih _).2]; exact ⟨rfl, rfl⟩
    · exact ih h

theorem freeInfo_refs (is : List Info) (h : Heap) (id : Nat) : (freeInfo is h).refs id = h.refs id - copies is id := by
  induction is generalizing h with
  | nil => simp [freeInfo, copies]
  | cons i is ih =>
    unfold freeInfo
    unfold copies
    rw [List.countP_cons]
    have ih' : ∀ h : Heap, (freeInfo is h).refs id = h.refs id - ((is.countP fun i => i.orig.isSome && i.obj == some id : Nat) : Int) := ih
    split
    · rename_i o1 o2 e1 e2
      rw [ih', e1, e2]
      by_cases hid : o2 = id
      · subst hid
        simp [Heap.decref]; omega
      · have : (some o2 == some id) = false := by simp [hid]
        simp [Heap.decref, Function.update_of_ne (Ne.symm hid), hid]
    · rename_i hne
      rw [ih']
      have : (i.orig.isSome && i.obj == some id) = false := by
        rcases h1 : i.orig with _ | a
        · rfl
        · rcases h2 : i.obj with _ | b
          · rfl
          · exact absurd h2 (by intro _; exact hne a b h1 h2)
      rw [this]; simp

/-- `h'` is `h` with the copies of `is` added. -/
structure Holds (h h' : Heap) (is : List Info) : Prop where
  refs : ∀ id, h'.refs id = h.refs id + copies is id
  next : h.next ≤ h'.next
  arr : ∀ id, id < h.next → h'.arr id = h.arr id
  fresh : ∀ id, h'.next ≤ id → h'.refs id = 0
  copy : ∀ i ∈ is, i.orig.isSome → ∀ o, i.obj = some o → h.next ≤ o

theorem holds_refl {h : Heap} (hz : ∀ id, h.next ≤ id → h.refs id = 0) : Holds h h [] :=
  ⟨fun id => by simp [copies], Nat.le_refl _, fun _ _ => rfl, hz, fun _ hi => by simp at hi⟩

theorem addArray_holds {h0 h h' : Heap} {is : List Info} {fails : Bool} {id : Nat} {io : Option Info} {s : Stop} (H : Holds h0 h is)
    (hlt : id < h0.next) (e : addArray fails id h = (h', io, s)) : Holds h0 h' (is ++ io.toList) := by
  unfold addArray at e
  unfold ensureContiguous at e
  by_cases hc : (h.arr id).contiguous = true
  · rw [if_pos hc] at e
    have key : ∀ i : Info, i.orig = none → Holds h0 h (is ++ [i]) := by
      intro i hi
      refine ⟨fun id => ?_, H.next, H.arr, H.fresh, ?_⟩
      · rw [copies_append, H.refs]; simp [copies, hi]
      · intro j hj
        rcases List.mem_append.1 hj with hj | hj
        · exact H.copy j hj
        · rw [List.mem_singleton.1 hj, hi]; intro h; cases h
    simp only [if_true] at e
    split at e
    · cases e; exact key _ rfl
    · split at e
      · cases e; exact key _ rfl
      · split at e <;> cases e <;> exact key _ rfl
  · rw [if_neg hc] at e
    have hnl : h0.next ≤ h.next := H.next
    by_cases hf : fails = true
    · rw [if_pos hf] at e
      simp only at e
      cases e
      refine ⟨fun id => ?_, H.next, H.arr, H.fresh, ?_⟩
      · rw [copies_append, H.refs]; simp [copies]
      · intro j hj
        rcases List.mem_append.1 hj with hj | hj
        · exact H.copy j hj
        · rw [List.mem_singleton.1 (show j ∈ [_] from hj)]; intro h; cases h
    · rw [if_neg hf] at e
      have hne : h.next ≠ id := by omega
      have key : ∀ i : Info, i.orig = some id → i.obj = some h.next → Holds h0 (h.new (packedCopy (h.arr id))) (is ++ [i]) := by
        intro i h1 h2
        refine ⟨fun k => ?_, Nat.le_trans hnl (Nat.le_succ _), fun k hk => ?_, fun k hk => ?_, ?_⟩
        · rw [copies_append]
          show Function.update h.refs h.next 1 k = _
          by_cases hk : k = h.next
          · subst hk
            have := H.refs h.next
            rw [H.fresh _ (Nat.le_refl _)] at this
            simp [copies, h1, h2] at this ⊢
            omega
          · rw [Function.update_of_ne hk, H.refs]
            have : (some h.next == some k) = false := by simp [Ne.symm hk]
            simp [copies, h1, h2, Ne.symm hk]
        · show Function.update h.arr h.next _ k = _
          rw [Function.update_of_ne (by omega), H.arr k hk]
        · show Function.update h.refs h.next 1 k = _
          have : h.next + 1 ≤ k := hk
          rw [Function.update_of_ne (by omega), H.fresh k (by omega)]
        · intro j hj
          rcases List.mem_append.1 hj with hj | hj
          · exact H.copy j hj
          · rw [List.mem_singleton.1 hj, h2]
            intro _ o ho
            cases ho
            exact hnl
      simp only [if_neg hne] at e
      split at e
      · cases e; exact key _ rfl rfl
      · split at e
        · cases e; exact key _ rfl rfl
        · split at e <;> cases e <;> exact key _ rfl rfl

theorem buildLoop_holds {h0 : Heap} {fails : Nat → Bool} : ∀ (xs : List PyObj) (i : Nat) (is : List Info) (h h' : Heap) (is' : List Info) (s : Stop),
    Holds h0 h is → (∀ id, PyObj.array id ∈ xs → id < h0.next) → buildLoop fails i xs is h = (h', is', s) → Holds h0 h' is' := by
  intro xs
  induction xs with
  | nil => intro i is h h' is' s H _ e; cases e; exact H
  | cons x xs ih =>
    intro i is h h' is' s H hx e
    have hx' : ∀ id, PyObj.array id ∈ xs → id < h0.next := fun id hid => hx id (List.mem_cons_of_mem _ hid)
    unfold buildLoop at e
    cases x with
    | none =>
      refine ih _ _ _ _ _ _ ?_ hx' e
      refine ⟨fun id => ?_, H.next, H.arr, H.fresh, ?_⟩
      · rw [copies_append, H.refs]; simp [copies]
      · intro j hj
        rcases List.mem_append.1 hj with hj | hj
        · exact H.copy j hj
        · rw [List.mem_singleton.1 hj]; intro h; cases h
    | array id =>
      simp only at e
      rcases ea : addArray (fails i) id h with ⟨h1, io, s1⟩
      have H1 := addArray_holds H (hx id (List.mem_cons_self ..)) ea
      rw [ea] at e
      cases s1 with
      | done => exact ih _ _ _ _ _ _ H1 hx' e
      | error => cases e; exact H1
      | fault => cases e; exact H1
    | list _ => cases e; exact H
    | tuple _ => cases e; exact H
    | other => cases e; exact H

theorem freed {h h' : Heap} {is : List Info} (H : Holds h h' is) :
    (∀ id, (freeInfo is h').refs id = h.refs id) ∧ ∀ id, id < h.next → (freeInfo is h').arr id = h.arr id := by
  refine ⟨fun id => ?_, fun id hid => ?_⟩
  · rw [freeInfo_refs, H.refs]; omega
  · rw [(freeInfo_frame is h').1, H.arr id hid]

theorem buildArrayInfo_holds {fails : Nat → Bool} {xs : List PyObj} {h h' : Heap} {b : Built} (hz : ∀ id, h.next ≤ id → h.refs id = 0)
    (hx : ∀ id, PyObj.array id ∈ xs → id < h.next) (e : buildArrayInfo fails xs h = (h', b)) :
    (∀ is, b = .ok is → Holds h h' is) ∧
    (b = .null → (∀ id, h'.refs id = h.refs id) ∧ ∀ id, id < h.next → h'.arr id = h.arr id) := by
  unfold buildArrayInfo at e
  rcases eb : buildLoop fails 0 xs [] h with ⟨h1, is, s⟩
  have H := buildLoop_holds xs 0 [] h h1 is s (holds_refl hz) hx eb
  rw [eb] at e
  cases s with
  | fault => cases e; exact ⟨(fun _ h => nomatch h), (fun h => nomatch h)⟩
  | error => cases e; exact ⟨(fun _ h => nomatch h), fun _ => freed H⟩
  | done =>
    simp only at e
    split at e
    · cases e
      exact ⟨(fun is' h => by cases h; exact H), (fun h => nomatch h)⟩
    · cases e; exact ⟨(fun _ h => nomatch h), fun _ => freed H⟩

theorem prepare_eq {fails : Nat → Bool} {args : List PyObj} {h h' : Heap} {b : Built} (e : prepare fails args h = (h', b)) :
    buildArrayInfo fails (keysOf args) h = (h', b) ∨ (b = .fault ∧ buildArrayInfo fails (keysOf args) h = (h', .ok [])) := by
  unfold prepare at e
  simp only at e
  change (match buildArrayInfo fails (keysOf args) h with
    | (h, .ok []) => (h, Built.fault)
    | r => r) = _ at e
  split at e
  · rename_i h2 eq
    cases e
    exact Or.inr ⟨rfl, eq⟩
  · exact Or.inl e

/-! ### keys of accepted calls -/

theorem le_packed (m : Int → BitVec 8) (sz : Nat) (s : Int) (i : Nat) : ∀ (k b : Nat), b + k ≤ sz →
    littleEndian (fun p => m (s * (p / sz) + p % sz)) ((sz : Int) * i + b) k = littleEndian m (s * i + b) k := by
  intro k
  induction k with
  | zero => intro b _; rfl
  | succ k ih =>
    intro b hb
    have h1 : ((sz : Int) * i + b) / sz = i := by
      rw [Int.mul_add_ediv_left _ _ (by omega)]
      rw [Int.ediv_eq_zero_of_lt (by omega) (by omega)]; omega
    have h2 : ((sz : Int) * i + b) % sz = b := by
      rw [Int.mul_add_emod_self_left]
      exact Int.emod_eq_of_lt (by omega) (by omega)
    show (m _).toNat + 256 * littleEndian _ _ k = (m _).toNat + 256 * littleEndian _ _ k
    rw [h1, h2]
    have := ih (b + 1) (by omega)
    rw [show (sz : Int) * i + b + 1 = sz * i + (b + 1 : Nat) by push_cast; omega, this,
      show s * i + (b + 1 : Nat) = s * i + b + 1 by push_cast; omega]

theorem column_packed (m : Int → BitVec 8) (sz : Nat) (s : Int) (ct : ColType) (hsz : ∀ k, ct.size = some k → sz = k) (n : Nat) :
    columnWith (littleEndian fun p => m (s * (p / sz) + p % sz)) ct 0 sz sz n = columnWith (littleEndian m) ct 0 s sz n := by
  have h0 := fun (i k b : Nat) (h : b + k ≤ sz) => le_packed m sz s i k b h
  unfold columnWith
  cases ct with
  | num t =>
    have := hsz _ rfl
    simp only [Int.zero_add]
    congr 1
    apply List.map_congr_left
    intro i _
    have := h0 i (t.bits / 8) 0 (by omega)
    rw [show ((0 : Nat) : Int) = 0 from rfl, Int.add_zero, Int.add_zero] at this
    rw [this]
  | half =>
    have := hsz _ rfl
    simp only [Int.zero_add]
    congr 1
    apply List.map_congr_left
    intro i _
    have := h0 i 2 0 (by omega)
    rw [show ((0 : Nat) : Int) = 0 from rfl, Int.add_zero, Int.add_zero] at this
    rw [this]
  | bytes =>
    simp only [Int.zero_add]
    congr 1
    apply List.map_congr_left
    intro i _
    apply List.map_congr_left
    intro j hj
    rw [h0 i 1 j (by have := List.mem_range.1 hj; omega)]
  | unicode =>
    simp only [Int.zero_add]
    congr 1
    apply List.map_congr_left
    intro i _
    apply List.map_congr_left
    intro j hj
    have := h0 i 4 (4 * j) (by have := List.mem_range.1 hj; omega)
    push_cast at this
    rw [this]

theorem contiguous_oneDim {a : Arr} {n : Nat} {s : Int} (h : OneDim a n s) : a.contiguous = true ↔ n < 2 ∨ s = a.itemsize := by
  unfold Arr.contiguous
  rw [h.1, h.2]
  simp only [List.zip_cons_cons, List.zip_nil_left, List.reverse_singleton, packed, Bool.and_true, Bool.or_assoc, Bool.or_self]
  rcases Nat.lt_trichotomy n 1 with h1 | h1 | h1
  · have : n = 0 := by omega
    subst this; simp
  · subst h1; simp
  · have h2 : ¬ n < 2 := by omega
    have h3 : ¬ n = 1 := by omega
    have h4 : ¬ 0 = n := by omega
    have h5 : ¬ n = 0 := by omega
    simp [h2, h3, h4]

theorem length_oneDim {a : Arr} {n : Nat} {s : Int} (h : OneDim a n s) : arrayLength a = n := by
  unfold arrayLength; rw [h.1]; simp

/-- The object added for a one-dimensional array: accepted with the array's own elements, or refused. -/
theorem addArray_oneDim {h : Heap} {id n : Nat} {s : Int} (fails : Bool) (ho : OneDim (h.arr id) n s) (hid : id < h.next) :
    (¬ (2 ≤ n ∨ s = (h.arr id).itemsize) → ∃ io, addArray fails id h = (h, io, .error)) ∧
    (s = (h.arr id).itemsize → addArray fails id h = (h, some ⟨some id, none, (h.arr id).itemsize, n, (h.arr id).dtype, 1⟩, .done)) ∧
    (2 ≤ n → s ≠ (h.arr id).itemsize → fails = true → ∃ io, addArray fails id h = (h, io, .error)) ∧
    (2 ≤ n → s ≠ (h.arr id).itemsize → fails = false → addArray fails id h = (h.new (packedCopy (h.arr id)),
      some ⟨some h.next, some id, (h.arr id).itemsize, n, (h.arr id).dtype, 1⟩, .done)) := by
  have hc := contiguous_oneDim ho
  have hl := length_oneDim ho
  refine ⟨fun hn => ?_, fun hs => ?_, fun h2 hs hf => ?_, fun h2 hs hf => ?_⟩
  · have : (h.arr id).contiguous = true := hc.2 (Or.inl (by omega))
    unfold addArray ensureContiguous
    rw [if_pos this]
    simp only [ho.2, ho.1, if_true]
    rw [if_neg (by simp), if_pos (by omega)]
    exact ⟨_, rfl⟩
  · have : (h.arr id).contiguous = true := hc.2 (Or.inr hs)
    unfold addArray ensureContiguous
    rw [if_pos this]
    simp only [ho.2, ho.1, if_true, hl]
    rw [if_neg (by simp), if_neg (by simp [hs])]
    rfl
  · have : ¬ (h.arr id).contiguous = true := fun h => by rcases hc.1 h with h | h; exact absurd h2 (by omega); exact hs h
    unfold addArray ensureContiguous
    rw [if_neg this, if_pos hf]
    exact ⟨_, rfl⟩
  · have : ¬ (h.arr id).contiguous = true := fun h => by rcases hc.1 h with h | h; exact absurd h2 (by omega); exact hs h
    have hnew : (h.new (packedCopy (h.arr id))).arr h.next = packedCopy (h.arr id) := by simp [Heap.new]
    have hp : packedCopy (h.arr id) = { (h.arr id) with
        strides := [((h.arr id).itemsize : Int)], mem := fun p => (h.arr id).mem (s * (p / (h.arr id).itemsize) + p % (h.arr id).itemsize) } := by
      unfold packedCopy; rw [ho.2]
    have hl' : arrayLength (packedCopy (h.arr id)) = n := by rw [hp]; exact hl
    unfold addArray ensureContiguous
    rw [if_neg this, if_neg (by simp [hf])]
    simp only [hnew, if_neg (show ¬ h.next = id by omega), hl']
    rw [hp]
    simp only [ho.1]
    rw [if_neg (by simp), if_neg (by simp)]
    rfl

end Pnumpy.LexEntry

namespace Pnumpy.LexEntry
open Pnumpy.Sort Pnumpy.Lex Spec

theorem addArray_nd {h : Heap} {id : Nat} (fails : Bool) (hs : Shaped (h.arr id)) (hd : (h.arr id).dims.length ≠ 1) :
    ∃ h' io, addArray fails id h = (h', io, .error) := by
  have hne : (h.arr id).strides ≠ [] := by
    intro e
    have := hs.1
    rw [e] at this
    exact hs.2 (List.length_eq_zero_iff.1 this.symm)
  obtain ⟨x, xs, hx⟩ := List.exists_cons_of_ne_nil hne
  unfold addArray ensureContiguous
  by_cases hc : (h.arr id).contiguous = true
  · rw [if_pos hc]
    simp only [hx, if_true]
    rw [if_pos hd]
    exact ⟨_, _, rfl⟩
  · rw [if_neg hc]
    by_cases hf : fails = true
    · rw [if_pos hf]; exact ⟨_, _, rfl⟩
    · rw [if_neg hf]
      have hnew : (h.new (packedCopy (h.arr id))).arr h.next = packedCopy (h.arr id) := by simp [Heap.new]
      have hp : packedCopy (h.arr id) = h.arr id := by
        unfold packedCopy
        split
        · rename_i s e
          have := hs.1
          rw [e] at this
          exact absurd this.symm hd
        · rfl
      rw [hp] at hnew
      rw [hp]
      simp only [hnew, hx]
      rw [if_pos hd]
      exact ⟨_, _, rfl⟩

/-- The heap only grows. -/
def Grows (h h' : Heap) : Prop := h.next ≤ h'.next ∧ ∀ o, o < h.next → h'.arr o = h.arr o

theorem Grows.refl (h : Heap) : Grows h h := ⟨Nat.le_refl _, fun _ _ => rfl⟩
theorem Grows.trans {h h' h'' : Heap} (a : Grows h h') (b : Grows h' h'') : Grows h h'' :=
  ⟨Nat.le_trans a.1 b.1, fun o ho => by rw [b.2 o (Nat.lt_of_lt_of_le ho a.1), a.2 o ho]⟩

theorem ensure_grows {h h' : Heap} {fails : Bool} {id : Nat} {r : Option Nat} (e : ensureContiguous fails id h = (h', r)) : Grows h h' := by
  unfold ensureContiguous at e
  split at e
  · cases e; exact .refl _
  · split at e
    · cases e; exact .refl _
    · cases e
      refine ⟨Nat.le_succ _, fun o ho => ?_⟩
      show Function.update h.arr h.next _ o = _
      rw [Function.update_of_ne (by omega)]

theorem addArray_grows {h h' : Heap} {fails : Bool} {id : Nat} {io : Option Info} {s : Stop} (e : addArray fails id h = (h', io, s)) :
    Grows h h' := by
  unfold addArray at e
  rcases ee : ensureContiguous fails id h with ⟨h1, r⟩
  have := ensure_grows ee
  rw [ee] at e
  cases r with
  | none => cases e; exact this
  | some o =>
    simp only at e
    split at e
    · cases e; exact this
    · split at e
      · cases e; exact this
      · split at e <;> cases e <;> exact this

theorem buildLoop_grows {fails : Nat → Bool} : ∀ (xs : List PyObj) (i : Nat) (is : List Info) (h h' : Heap) (is' : List Info) (s : Stop),
    buildLoop fails i xs is h = (h', is', s) → Grows h h' := by
  intro xs
  induction xs with
  | nil => intro i is h h' is' s e; cases e; exact .refl _
  | cons x xs ih =>
    intro i is h h' is' s e
    unfold buildLoop at e
    cases x with
    | none => exact ih _ _ _ _ _ _ e
    | array id =>
      simp only at e
      rcases ea : addArray (fails i) id h with ⟨h1, io, s1⟩
      have H1 := addArray_grows ea
      rw [ea] at e
      cases s1 with
      | done => exact H1.trans (ih _ _ _ _ _ _ e)
      | error => cases e; exact H1
      | fault => cases e; exact H1
    | list _ => cases e; exact .refl _
    | tuple _ => cases e; exact .refl _
    | other => cases e; exact .refl _

/-- `info` describes key `x`: the array itself or a packed copy of it, with the same elements. -/
structure InfoOf (h0 h' : Heap) (x : PyObj) (info : Info) : Prop where
  ex : ∃ id, x = .array id ∧ ∃ n s, OneDim (h0.arr id) n s ∧ (2 ≤ n ∨ s = (h0.arr id).itemsize) ∧
    info.len = n ∧ info.dtype = (h0.arr id).dtype ∧ info.itemSize = (h0.arr id).itemsize ∧
    ∃ o, info.obj = some o ∧ o < h'.next ∧ (h'.arr o).dims = [n] ∧
      ∀ ct : ColType, (∀ k, ct.size = some k → (h0.arr id).itemsize = k) →
        columnWith (littleEndian (h'.arr o).mem) ct 0 info.itemSize info.itemSize n =
        columnWith (littleEndian (h0.arr id).mem) ct 0 s (h0.arr id).itemsize n

theorem InfoOf.grows {h0 h h' : Heap} {x : PyObj} {info : Info} (H : InfoOf h0 h x info) (g : Grows h h') : InfoOf h0 h' x info := by
  obtain ⟨id, e, n, s, a, b, c, d, f, o, g1, g2, g3, g4⟩ := H.ex
  exact ⟨id, e, n, s, a, b, c, d, f, o, g1, Nat.lt_of_lt_of_le g2 g.1, by rw [g.2 o g2]; exact g3, by rw [g.2 o g2]; exact g4⟩

theorem buildLoop_outcome {h0 : Heap} {fails : Nat → Bool} : ∀ (xs : List PyObj) (i : Nat) (is : List Info) (h : Heap),
    Grows h0 h → Proper h0 xs →
    ∃ h' is' st, buildLoop fails i xs is h = (h', is ++ is', st) ∧
      ((st = .error ∧ ((∃ j, fails j = true) ∨ ∃ x ∈ xs, ¬ ∃ id n, x = .array id ∧ Acceptable (h0.arr id) n)) ∨
       (st = .done ∧ List.Forall₂ (InfoOf h0 h') xs is')) := by
  intro xs
  induction xs with
  | nil =>
    intro i is h g _
    exact ⟨h, [], .done, by rw [List.append_nil]; rfl, Or.inr ⟨rfl, .nil⟩⟩
  | cons x xs ih =>
    intro i is h g hp
    have hp' : Proper h0 xs := fun y hy => hp y (List.mem_cons_of_mem _ hy)
    obtain ⟨hx1, hx2⟩ := hp x (List.mem_cons_self ..)
    unfold buildLoop
    cases x with
    | none => exact absurd rfl hx1
    | list _ => exact ⟨h, [], .error, by rw [List.append_nil], Or.inl ⟨rfl, Or.inr ⟨_, List.mem_cons_self .., fun ⟨_, _, e, _⟩ => by cases e⟩⟩⟩
    | tuple _ => exact ⟨h, [], .error, by rw [List.append_nil], Or.inl ⟨rfl, Or.inr ⟨_, List.mem_cons_self .., fun ⟨_, _, e, _⟩ => by cases e⟩⟩⟩
    | other => exact ⟨h, [], .error, by rw [List.append_nil], Or.inl ⟨rfl, Or.inr ⟨_, List.mem_cons_self .., fun ⟨_, _, e, _⟩ => by cases e⟩⟩⟩
    | array id =>
      obtain ⟨hid, hsh⟩ := hx2 id rfl
      have ha := g.2 id hid
      have hidh : id < h.next := Nat.lt_of_lt_of_le hid g.1
      simp only
      have stop : ∀ h' io, addArray (fails i) id h = (h', io, .error) →
          ((∃ j, fails j = true) ∨ ¬ ∃ n, Acceptable (h0.arr id) n) →
          ∃ h'' is' st, (match addArray (fails i) id h with
            | (h, info, .done) => buildLoop fails (i + 1) xs (is ++ info.toList) h
            | (h, info, s) => (h, is ++ info.toList, s)) = (h'', is ++ is', st) ∧
            ((st = .error ∧ ((∃ j, fails j = true) ∨ ∃ x ∈ PyObj.array id :: xs, ¬ ∃ id n, x = .array id ∧ Acceptable (h0.arr id) n)) ∨
             (st = .done ∧ List.Forall₂ (InfoOf h0 h'') (PyObj.array id :: xs) is')) := by
        intro h' io e hr
        rw [e]
        refine ⟨h', io.toList, .error, rfl, Or.inl ⟨rfl, ?_⟩⟩
        rcases hr with hr | hr
        · exact Or.inl hr
        · exact Or.inr ⟨_, List.mem_cons_self .., fun ⟨id', n, e, h⟩ => by cases e; exact hr ⟨n, h⟩⟩
      have go : ∀ h' info, addArray (fails i) id h = (h', some info, .done) → InfoOf h0 h' (.array id) info →
          ∃ h'' is' st, (match addArray (fails i) id h with
            | (h, info, .done) => buildLoop fails (i + 1) xs (is ++ info.toList) h
            | (h, info, s) => (h, is ++ info.toList, s)) = (h'', is ++ is', st) ∧
            ((st = .error ∧ ((∃ j, fails j = true) ∨ ∃ x ∈ PyObj.array id :: xs, ¬ ∃ id n, x = .array id ∧ Acceptable (h0.arr id) n)) ∨
             (st = .done ∧ List.Forall₂ (InfoOf h0 h'') (PyObj.array id :: xs) is')) := by
        intro h' info e hi
        have g1 := addArray_grows e
        obtain ⟨h2, is2, st, e2, r⟩ := ih (i + 1) (is ++ [info]) h' (g.trans g1) hp'
        rw [e]
        refine ⟨h2, info :: is2, st, ?_, ?_⟩
        · show buildLoop fails (i + 1) xs (is ++ [info]) h' = _
          rw [e2, List.append_assoc]; rfl
        · rcases r with ⟨r1, r2⟩ | ⟨r1, r2⟩
          · refine Or.inl ⟨r1, ?_⟩
            rcases r2 with r2 | ⟨x, hx, r2⟩
            · exact Or.inl r2
            · exact Or.inr ⟨x, List.mem_cons_of_mem _ hx, r2⟩
          · exact Or.inr ⟨r1, .cons (hi.grows (buildLoop_grows _ _ _ _ _ _ _ e2)) r2⟩
      by_cases hd : (h0.arr id).dims.length = 1
      · obtain ⟨n, hn⟩ := List.length_eq_one_iff.1 hd
        obtain ⟨s, hs⟩ := List.length_eq_one_iff.1 (hsh.1.trans hd)
        have ho : OneDim (h0.arr id) n s := ⟨hn, hs⟩
        have ho' : OneDim (h.arr id) n s := by rw [ha]; exact ho
        obtain ⟨c1, c2, c3, c4⟩ := addArray_oneDim (fails i) ho' hidh
        by_cases hs1 : s = (h.arr id).itemsize
        · refine go _ _ (c2 hs1) ⟨id, rfl, n, s, ho, Or.inr (by rw [hs1, ha]), rfl, by rw [ha], by rw [ha], id, rfl, hidh, by rw [ha]; exact hn, ?_⟩
          intro ct _
          rw [← hs1, ha]
        · by_cases h2 : 2 ≤ n
          · by_cases hf : fails i = true
            · obtain ⟨io, e⟩ := c3 h2 hs1 hf
              exact stop _ io e (Or.inl ⟨i, hf⟩)
            · refine go _ _ (c4 h2 hs1 (by simpa using hf)) ⟨id, rfl, n, s, ho, Or.inl h2, rfl, by rw [ha], by rw [ha], h.next, rfl, Nat.lt_succ_self _, ?_, ?_⟩
              · show (Function.update h.arr h.next _ h.next).dims = _
                rw [Function.update_self]
                unfold packedCopy
                rw [ho'.2]
                exact ho'.1
              · intro ct hk
                show columnWith (littleEndian (Function.update h.arr h.next _ h.next).mem) _ _ _ _ _ = _
                rw [Function.update_self]
                unfold packedCopy
                rw [ho'.2]
                simp only
                rw [ha]
                exact column_packed (h0.arr id).mem (h0.arr id).itemsize s ct hk n
          · obtain ⟨io, e⟩ := c1 (by rintro (h | h); exact h2 h; exact hs1 h)
            refine stop _ io e (Or.inr ?_)
            rintro ⟨n', s', o', h'⟩
            have e1 : n' = n := by have := o'.1.symm.trans hn; simpa using this
            have e2 : s' = s := by have := o'.2.symm.trans hs; simpa using this
            subst e1; subst e2
            rw [← ha] at h'
            exact h'.elim h2 hs1
      · obtain ⟨h', io, e⟩ := addArray_nd (fails i) (by rw [ha]; exact hsh) (by rw [ha]; exact hd)
        refine stop _ io e (Or.inr ?_)
        rintro ⟨n', s', o', _⟩
        rw [o'.1] at hd
        exact hd rfl

end Pnumpy.LexEntry
