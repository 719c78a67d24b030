import Verif.Spec.RecEntry
import Verif.Props.RecArray
/- Lemmas on the entry point of recarray_to_colmajor. -/
namespace Pnumpy.RecEntry
open Spec RecArray

/-- Byte `q` of buffer `b`. -/
def get2 (bufs : List (List Byte)) (b q : Nat) : Option Byte := bufs[b]?.bind (·[q]?)

theorem get2_set {bufs : List (List Byte)} {b : Nat} {buf buf' : List Byte} {off : Int} {x : List Byte} (hb : bufs[b]? = some buf)
    (hw : Chunks.write buf off x = some buf') (b' q : Nat) :
    get2 (bufs.set b buf') b' q = if b' = b ∧ off ≤ q ∧ (q : Int) < off + x.length then x[q - off.toNat]? else get2 bufs b' q := by
  unfold get2
  have hlt : b < bufs.length := (List.getElem?_eq_some_iff.1 hb).1
  by_cases h : b' = b
  · subst h
    rw [List.getElem?_set_self hlt, Option.bind_some, write_get hw, hb, Option.bind_some]
    simp only [true_and]
  · rw [List.getElem?_set_ne (fun e => h e.symm), if_neg (fun e => h e.1)]

/-- The outputs: `dests` with their targets `T` lie in the buffers and do not overlap. -/
structure Placed (dests : List (Nat × Nat)) (T : Nat → List Byte) (bufs : List (List Byte)) : Prop where
  inside : ∀ (i b p : Nat), dests[i]? = some (b, p) → ∃ buf, bufs[b]? = some buf ∧ p + (T i).length ≤ buf.length
  apart : ∀ (i i' b p p' : Nat), i ≠ i' → dests[i]? = some (b, p) → dests[i']? = some (b, p') →
    ∀ q, ¬ ((p ≤ q ∧ q < p + (T i).length) ∧ p' ≤ q ∧ q < p' + (T i').length)

theorem runHeap_ok {dests : List (Nat × Nat)} {T : Nat → List Byte} : ∀ (ws : List (Write Byte)) (bufs : List (List Byte)), Placed dests T bufs →
    (∀ w ∈ ws, w.1 < dests.length ∧ Piece (T w.1) w.2.1 w.2.2) →
    ∃ bufs', runHeap dests bufs ws = some bufs' ∧ bufs'.map List.length = bufs.map List.length ∧
      (∀ (i b p j : Nat), dests[i]? = some (b, p) → j < (T i).length → (Covers ws i j ∨ get2 bufs b (p + j) = (T i)[j]?) → get2 bufs' b (p + j) = (T i)[j]?) ∧
      ∀ b q, (∀ (i p : Nat), dests[i]? = some (b, p) → ¬ (p ≤ q ∧ q < p + (T i).length)) → get2 bufs' b q = get2 bufs b q := by
  intro ws
  induction ws with
  | nil =>
    intro bufs _ _
    refine ⟨bufs, rfl, rfl, ?_, fun _ _ _ => rfl⟩
    rintro i b p j hd hj (⟨off, x, hm, _⟩ | h)
    · simp at hm
    · exact h
  | cons w ws ih =>
    obtain ⟨i, off, x⟩ := w
    intro bufs hpl h3
    obtain ⟨hi, hp⟩ := h3 (i, off, x) (by simp)
    simp only at hi hp
    obtain ⟨⟨b, p⟩, hd⟩ : ∃ d, dests[i]? = some d := ⟨_, List.getElem?_eq_getElem hi⟩
    obtain ⟨buf, hb, hin⟩ := hpl.inside i b p hd
    have hbnd := hp.bounds
    obtain ⟨buf', hw⟩ : ∃ buf', Chunks.write buf ((p : Int) + off) x = some buf' := by
      unfold Chunks.write
      rw [if_pos (by omega)]
      exact ⟨_, rfl⟩
    have hwl := Chunks.write_length hw
    have hlt : b < bufs.length := (List.getElem?_eq_some_iff.1 hb).1
    have hset := get2_set hb hw
    have hpl' : Placed dests T (bufs.set b buf') := by
      refine ⟨fun i' b' p' h' => ?_, hpl.apart⟩
      obtain ⟨c, hc, hcl⟩ := hpl.inside i' b' p' h'
      by_cases hbb : b = b'
      · subst hbb
        rw [hb] at hc
        obtain rfl := Option.some.inj hc
        exact ⟨buf', List.getElem?_set_self hlt, by omega⟩
      · exact ⟨c, by rw [List.getElem?_set_ne hbb]; exact hc, hcl⟩
    obtain ⟨bufs', e1, e2, e3, e4⟩ := ih (bufs.set b buf') hpl' (fun w hw => h3 w (by simp [hw]))
    refine ⟨bufs', ?_, ?_, ?_, ?_⟩
    · rw [runHeap, hd, Option.bind_eq_bind, Option.bind_some]
      simp only
      simp only [hb, hw, Option.bind_eq_bind, Option.bind_some, e1]
    · rw [e2, List.map_set, hwl]
      apply List.ext_getElem?
      intro k
      by_cases hk : b = k
      · subst hk
        rw [List.getElem?_set_self (by simpa using hlt), List.getElem?_map, hb]; rfl
      · rw [List.getElem?_set_ne hk]
    · intro i' b' p' j hd' hj hor
      apply e3 i' b' p' j hd' hj
      -- is the byte written by this write?
      by_cases hcov : Covers ws i' j
      · exact Or.inl hcov
      refine Or.inr ?_
      rw [hset]
      by_cases hii : i' = i
      · subst hii
        rw [hd] at hd'
        obtain ⟨rfl, rfl⟩ := Prod.mk.inj (Option.some.inj hd')
        split
        · next hc =>
          have := hp.get (j := j) (by omega) (by omega)
          rw [← this]; congr 1; omega
        · next hc =>
          rcases hor with ⟨off', x', hm, hc1, hc2⟩ | h
          · rcases List.mem_cons.1 hm with h | h
            · obtain ⟨rfl, rfl⟩ := by simpa using h
              exact absurd ⟨rfl, by omega, by omega⟩ hc
            · exact absurd ⟨off', x', h, hc1, hc2⟩ hcov
          · exact h
      · have hout : ¬ (b' = b ∧ (p : Int) + off ≤ ((p' + j : Nat) : Int) ∧ ((p' + j : Nat) : Int) < p + off + x.length) := by
          rintro ⟨rfl, h1, h2⟩
          exact hpl.apart i' i b' p' p hii hd' hd (p' + j) (by omega)
        rw [if_neg hout]
        rcases hor with ⟨off', x', hm, hc1, hc2⟩ | h
        · rcases List.mem_cons.1 hm with h | h
          · obtain ⟨rfl, _⟩ := by simpa using h
            exact absurd rfl hii
          · exact absurd ⟨off', x', h, hc1, hc2⟩ hcov
        · exact h
    · intro b' q hq
      rw [e4 b' q hq, hset, if_neg]
      rintro ⟨rfl, h1, h2⟩
      exact hq i p hd ⟨by omega, by omega⟩

/-- A write that leaves its buffer makes the run fail. -/
theorem runHeap_out {dests : List (Nat × Nat)} {L : Nat → Nat} : ∀ (ws : List (Write Byte)) (bufs : List (List Byte)),
    (∀ (b : Nat) (buf : List Byte), bufs[b]? = some buf → buf.length = L b) →
    (∃ (i : Nat) (off : Int) (x : List Byte) (b p : Nat), (i, off, x) ∈ ws ∧ dests[i]? = some (b, p) ∧ (L b : Int) < p + off + x.length) → runHeap dests bufs ws = none := by
  intro ws
  induction ws with
  | nil => rintro bufs _ ⟨i, off, x, b, p, hm, _⟩; simp at hm
  | cons w ws ih =>
    obtain ⟨i, off, x⟩ := w
    rintro bufs hL ⟨i', off', x', b', p', hm, hd, hlt⟩
    rw [runHeap]
    cases hd' : dests[i]? with
    | none => rfl
    | some d =>
      obtain ⟨b, p⟩ := d
      rw [Option.bind_eq_bind, Option.bind_some]
      simp only
      cases hb : bufs[b]? with
      | none => rfl
      | some buf =>
        rw [Option.bind_eq_bind, Option.bind_some]
        cases hw : Chunks.write buf ((p : Int) + off) x with
        | none => rfl
        | some buf' =>
          rw [Option.bind_some]
          have hbl := hL b buf hb
          have hwl := Chunks.write_length hw
          rcases List.mem_cons.1 hm with h | h
          · obtain ⟨rfl, rfl, rfl⟩ := by simpa using h
            rw [hd] at hd'
            obtain ⟨rfl, rfl⟩ := Prod.mk.inj (Option.some.inj hd')
            unfold Chunks.write at hw
            rw [if_neg (by omega)] at hw
            cases hw
          · refine ih _ ?_ ⟨i', off', x', b', p', h, hd, hlt⟩
            intro c buf'' hc
            by_cases hbc : b = c
            · subst hbc
              rw [List.getElem?_set_self (List.getElem?_eq_some_iff.1 hb).1] at hc
              obtain rfl := Option.some.inj hc
              omega
            · rw [List.getElem?_set_ne hbc] at hc
              exact hL c buf'' hc

theorem leNat_le : ∀ k n, leNat (le k n) = n % 256 ^ k := by
  intro k
  induction k with
  | zero => intro n; simp [leNat, le, Nat.mod_one]
  | succ k ih =>
    intro n
    rw [le, leNat, ih, BitVec.toNat_ofNat, Nat.pow_succ (n := 256), Nat.mul_comm (256 ^ k), Nat.mod_mul]

theorem int64At_le {bytes : List Byte} {i n : Nat} (h : (bytes.drop (8 * i)).take 8 = le 8 n) (hn : n < 2 ^ 63) : int64At bytes i = some (n : Int) := by
  have hl : (le 8 n).length = 8 := rfl
  have hlen : 8 * i + 8 ≤ bytes.length := by
    have := congrArg List.length h
    rw [List.length_take, List.length_drop, hl] at this; omega
  unfold int64At
  have e : leNat (le 8 n) = n := by rw [leNat_le]; exact Nat.mod_eq_of_lt (by omega)
  have e2 : (BitVec.ofNat 64 n).toInt = n := by
    have h3 : (2 : Nat) ^ 64 = 2 * 2 ^ 63 := rfl
    have h4 : (BitVec.ofNat 64 n).toNat = n := by rw [BitVec.toNat_ofNat]; exact Nat.mod_eq_of_lt (by omega)
    rw [BitVec.toInt_eq_toNat_of_lt (by omega), h4]
  rw [if_pos hlen, h, e, e2]

theorem colsUpTo_ok {w : World} {offs : List Byte} {slots : List (Option Nat)} {cols : List (Col × Nat × Nat)} : ∀ n, n ≤ cols.length →
    (∀ (i : Nat) c, cols[i]? = some c → colAt w offs slots i = some c) → colsUpTo w offs slots n = some (cols.take n) := by
  intro n
  induction n with
  | zero => intro _ _; rfl
  | succ n ih =>
    intro hn h
    have hc : cols[n]? = some cols[n] := List.getElem?_eq_getElem (by omega)
    rw [colsUpTo, ih (by omega) h, Option.bind_eq_bind, Option.bind_some, h n _ hc, Option.bind_eq_bind, Option.bind_some, List.take_add_one, hc]; rfl

theorem calcArrayLength_count (dims : List Nat) : Strides.calcArrayLength dims = count dims := by
  have : ∀ (ds : List Nat) (a : Nat), ds.foldl (fun l d => l * d) a = a * count ds := by
    intro ds
    induction ds with
    | nil => intro a; simp [count]
    | cons d ds ih => intro a; rw [List.foldl_cons, ih, count]; ring
  rw [Strides.calcArrayLength, this, Nat.one_mul]

theorem posC_lt : ∀ (ds idx : List Nat), inBounds ds idx → posC ds idx < count ds := by
  intro ds
  induction ds with
  | nil => intro idx h; cases idx <;> simp_all [inBounds, posC, count]
  | cons d ds ih =>
    intro idx h
    cases idx with
    | nil => simp [inBounds] at h
    | cons i is =>
      obtain ⟨h1, h2⟩ := h
      have := ih is h2
      rw [posC, count]
      have := Nat.mul_le_mul_right (count ds) (Nat.succ_le_of_lt h1)
      rw [Nat.succ_mul] at this
      omega

end Pnumpy.RecEntry
