import Verif.Spec.GetItem
import Verif.Proofs.GetItem
/-
Property theorems C30, C31: getitem with masks and with integer indices.
-/
namespace Pnumpy.Props
open Spec Pnumpy.GetItem Pnumpy.Chunks

variable {β : Type}

/-- C30, core: what the model of getitem(a, mask) returns, in terms of the mask bytes `m` and items `v`. -/
theorem boolean_index {m : Nat → BitVec 8} {v : Nat → List β} {rdM : Int → Option (BitVec 8)} {rdV : Int → Option (List β)} {n isz : Nat}
    {sb sv : Int} (hM : ∀ i : Nat, i < n → rdM (i * sb) = some (m i)) (hV : ∀ i : Nat, i < n → rdV (i * sv) = some (v i))
    (hlen : ∀ i, i < n → (v i).length = isz) {t1 t2 : Bool} (ht : t1 = true ∨ t2 = false)
    (hsz : (isz = 1 ∨ isz = 2 ∨ isz = 4 ∨ isz = 8) ∨ sv = isz ∨ sb ≠ 1)
    {calls1 calls2 : List (Nat × Nat)} (h1 : Calls n t1 calls1) (h2 : Calls n t2 calls2) {raw : List Nat}
    (hr : raw.length = (max n 1 + 16383) / 16384) :
    ∃ offs, boolOffsets rdM sb t1 calls1 raw = some (offs, (maskSelect m v n).length) ∧
      ∀ out : List β, out.length = (maskSelect m v n).length * isz →
        (∀ out', Result (boolKernel rdM rdV sb sv isz offs) calls2 out out' ↔ out' = (maskSelect m v n).flatten) ∧
        ¬ Faults (boolKernel rdM rdV sb sv isz offs) calls2 out := by
  have hsel : maskSelect m v n = sel m v 0 n := by unfold maskSelect sel; rw [List.range_eq_range']
  obtain ⟨offs, o1, o2, o3, o4⟩ := boolOffsets_ok hM h1 hr
  rw [hsel, sel_length]
  refine ⟨offs, o1, fun out ho => ?_⟩
  have key : ∀ parts, calls2.Perm parts → Consec n 0 parts → (∀ c ∈ parts, offs[c.1 / 16384]? = some (cnt m 0 c.1)) →
      (∀ out', Result (boolKernel rdM rdV sb sv isz offs) calls2 out out' ↔ out' = (sel m v 0 n).flatten) ∧
        ¬ Faults (boolKernel rdM rdV sb sv isz offs) calls2 out := by
    intro parts hp hc hoff
    refine fill_result (isz := isz) ?_ (by rw [sel_length]; exact ho) hp
      (f := fun c => itemWrites isz ((sel m v c.1 c.2).zipIdx (cnt m 0 c.1))) (fun c hcm => ?_) ?_
    · intro x hx
      obtain ⟨i, hi, rfl⟩ := List.mem_map.1 hx
      have := List.mem_of_mem_filter hi
      simp only [List.mem_range'_1] at this
      exact hlen i (by omega)
    · have := hc.mem hcm
      obtain ⟨a, l⟩ := c
      exact boolKernel_ok hM hV hsz this.2 (hoff _ hcm)
    · have := consec_flatMap (n := n) (fun a l => itemWrites isz ((sel m v a l).zipIdx (cnt m 0 a))) (fun a => by simp [sel_zero, itemWrites])
        (fun a l k => by
          have e : cnt m 0 (a + l) = cnt m 0 a + cnt m a l := by simpa using cnt_add m 0 a l
          simp only [sel_add, itemWrites_append, sel_length, e]) hc
      rw [this]; simp [cnt_zero]
  cases t2 with
  | false =>
    refine key [(0, n)] (List.Perm.of_eq (calls_serial h2)) (consec_serial n) ?_
    intro c hc
    obtain rfl := List.mem_singleton.1 hc
    simpa [cnt_zero] using o2
  | true =>
    have ht1 : t1 = true := by simpa using ht
    obtain ⟨_, hp⟩ := calls_threaded h2
    refine key (blocks n) hp (consec_blocks n) ?_
    intro c hc
    obtain ⟨b, hb, rfl⟩ := mem_blocks hc
    simpa using o3 ht1 b hb

/-- C30 (partial: the counting pass threaded or the copying pass not; item sizes other than 1, 2, 4, 8 only for contiguous
values or a strided mask; see the `_violated` theorems): for every length, mask, item size, strides of mask and values (also
negative and zero) and every schedule, getitem(a, mask) returns exactly the items with a true mask byte, in order; it reads
and writes only inside the arrays, and a result exists. -/
theorem C30_mask_partial (m : Nat → BitVec 8) (v : Nat → List β) (rdM : Int → Option (BitVec 8)) (rdV : Int → Option (List β)) (n isz : Nat)
    (sb sv : Int) (hM : ∀ i : Nat, i < n → rdM (i * sb) = some (m i)) (hV : ∀ i : Nat, i < n → rdV (i * sv) = some (v i))
    (hlen : ∀ i, i < n → (v i).length = isz) (t1 t2 : Bool) (ht : t1 = true ∨ t2 = false)
    (hsz : (isz = 1 ∨ isz = 2 ∨ isz = 4 ∨ isz = 8) ∨ sv = isz ∨ sb ≠ 1) :
    (∀ out', BoolResult rdM rdV n sb sv isz t1 t2 out' → out' = (maskSelect m v n).flatten) ∧
    (∀ raw out, raw.length = (max n 1 + 16383) / 16384 → ¬ BoolFault rdM rdV n sb sv isz t1 t2 raw out) ∧
    ((t1 = true ∨ t2 = true → 65536 ≤ n) → [Inhabited β] → ∃ out', BoolResult rdM rdV n sb sv isz t1 t2 out') := by
  refine ⟨?_, ?_, ?_⟩
  · rintro out' ⟨calls1, calls2, raw, offs, total, out, h1, h2, hr, ho, hl, hres⟩
    obtain ⟨offs', e1, e2⟩ := boolean_index hM hV hlen ht hsz h1 h2 hr
    rw [ho] at e1
    obtain ⟨rfl, rfl⟩ := Prod.mk.inj (Option.some.inj e1)
    split at hres
    · next h0 =>
      rw [h0] at hl
      have : maskSelect m v n = [] := List.eq_nil_of_length_eq_zero h0
      rw [hres, this]
      exact List.eq_nil_of_length_eq_zero (by simpa using hl)
    · exact ((e2 out hl).1 out').1 hres
  · rintro raw out hr ⟨calls1, calls2, h1, h2, h⟩
    obtain ⟨offs', e1, e2⟩ := boolean_index hM hV hlen ht hsz h1 h2 hr
    rcases h with h | ⟨offs, total, h3, _, h5, h6⟩
    · rw [h] at e1; cases e1
    · rw [h3] at e1
      obtain ⟨rfl, rfl⟩ := Prod.mk.inj (Option.some.inj e1)
      exact (e2 out h5).2 h6
  · intro hn _
    have ex : ∀ t, (t = true → 65536 ≤ n) → ∃ calls, Calls n t calls := fun t h => by
      cases t with
      | false => exact ⟨_, .serial⟩
      | true => exact calls_exist (h rfl)
    obtain ⟨calls1, h1⟩ := ex t1 (fun h => hn (Or.inl h))
    obtain ⟨calls2, h2⟩ := ex t2 (fun h => hn (Or.inr h))
    have hr : (List.replicate ((max n 1 + 16383) / 16384) 0).length = (max n 1 + 16383) / 16384 := List.length_replicate
    obtain ⟨offs', e1, e2⟩ := boolean_index hM hV hlen ht hsz h1 h2 hr
    let out : List β := List.replicate ((maskSelect m v n).length * isz) default
    have hout : out.length = (maskSelect m v n).length * isz := List.length_replicate
    by_cases h0 : (maskSelect m v n).length = 0
    · exact ⟨out, calls1, calls2, _, offs', _, out, h1, h2, hr, e1, hout, by rw [if_pos h0]⟩
    · exact ⟨_, calls1, calls2, _, offs', _, out, h1, h2, hr, e1, hout, by rw [if_neg h0]; exact ((e2 out hout).1 _).2 rfl⟩

/-- Three 2-byte items, every second one of a larger array, mask 1 0 7. -/
example : ∃ out', BoolResult (fun p => if p = 0 then some 1 else if p = 1 then some 0 else if p = 2 then some 7 else none)
      (fun p => if p = 0 then some ['a', 'b'] else if p = 4 then some ['c', 'd'] else if p = 8 then some ['e', 'f'] else none) 3 1 4 2 false false out' ∧
    out' = ['a', 'b', 'e', 'f'] := by
  have h := C30_mask_partial (fun i => if i = 0 then 1 else if i = 1 then 0 else 7) (fun i => if i = 0 then ['a', 'b'] else if i = 1 then ['c', 'd'] else ['e', 'f'])
    (fun p => if p = 0 then some 1 else if p = 1 then some 0 else if p = 2 then some 7 else none)
    (fun p => if p = 0 then some ['a', 'b'] else if p = 4 then some ['c', 'd'] else if p = 8 then some ['e', 'f'] else none) 3 2 1 4
    (by intro i hi; have : i = 0 ∨ i = 1 ∨ i = 2 := by omega
        rcases this with rfl | rfl | rfl <;> rfl)
    (by intro i hi; have : i = 0 ∨ i = 1 ∨ i = 2 := by omega
        rcases this with rfl | rfl | rfl <;> rfl)
    (by intro i hi; have : i = 0 ∨ i = 1 ∨ i = 2 := by omega
        rcases this with rfl | rfl | rfl <;> rfl) false false (Or.inr rfl) (Or.inl (by decide))
  obtain ⟨out', ho⟩ := h.2.2 (by simp)
  exact ⟨out', ho, by rw [h.1 out' ho]; decide⟩

/-! ### What fails -/

/-- C30, violated: with an item size that is not 1, 2, 4 or 8, a contiguous mask and strided values, the tail loop advances
the output by the stride of the values: already two items are written outside the result. -/
theorem C30_tail_violated (isz : Nat) (sv : Int) (h0 : isz ≠ 1 ∧ isz ≠ 2 ∧ isz ≠ 4 ∧ isz ≠ 8) (hsv : (isz : Int) < sv) (x y : List β)
    (hx : x.length = isz) (hy : y.length = isz) (raw : List Nat) (hr : raw.length = 1) (out : List β) (ho : out.length = 2 * isz) :
    BoolFault (fun _ => some 1) (fun p => if p = 0 then some x else if p = sv then some y else none) 2 1 sv isz false false raw out := by
  have hM : ∀ i : Nat, i < 2 → (fun _ => some 1 : Int → Option (BitVec 8)) (i * 1) = some 1 := fun _ _ => rfl
  obtain ⟨offs, o1, o2, _, _⟩ := boolOffsets_ok (m := fun _ => 1) (n := 2) (rdM := fun _ => some 1) (sb := 1) hM (t1 := false) .serial (raw := raw) (by simpa using hr)
  refine ⟨[(0, 2)], [(0, 2)], .serial, .serial, Or.inr ⟨offs, 2, ?_, by decide, ho, ?_⟩⟩
  · rw [o1]; rfl
  · have hts : tailStep isz sv = sv := by unfold tailStep; rw [if_neg (by omega)]
    have hne : sv ≠ 0 := by omega
    refine faults_of_write (c := (0, 2)) (ws := [(0, x), (sv, y)]) (off := sv) (x := y) (by simp) ?_ (by simp) (by omega)
    unfold boolKernel
    simp [o2, pick8, maskBytes, pick, hts, hne]

/-- C30, violated: if the counting pass runs without threads (another thread of the program has a threaded operation
active) and the copying pass with threads, all but the first chunk use uninitialised offsets: there are contents of the
fresh allocation for which the call writes outside the result; every all-true mask of at least 65536 bytes. -/
theorem C30_mixed_passes_violated (n isz : Nat) (hn : 65536 ≤ n) (hisz : 0 < isz) (x : List β) (hx : x.length = isz) (out : List β) (ho : out.length = n * isz) :
    ∃ raw : List Nat, raw.length = (max n 1 + 16383) / 16384 ∧
      BoolFault (fun _ => some 1) (fun _ => some x) n 1 isz isz false true raw out := by
  have hmax : max n 1 = n := by omega
  refine ⟨List.replicate ((max n 1 + 16383) / 16384) n, List.length_replicate, ?_⟩
  have hM : ∀ i : Nat, i < n → (fun _ => some 1 : Int → Option (BitVec 8)) (i * 1) = some ((fun _ => 1 : Nat → BitVec 8) i) := fun _ _ => rfl
  have hV : ∀ i : Nat, i < n → (fun _ => some x : Int → Option (List β)) (i * (isz : Int)) = some ((fun _ => x : Nat → List β) i) := fun _ _ => rfl
  obtain ⟨offs, o1, o2, o3, o4⟩ := boolOffsets_ok (m := fun _ => 1) (n := n) (rdM := fun _ => some 1) (sb := 1) hM (t1 := false) .serial (raw := List.replicate ((max n 1 + 16383) / 16384) n) List.length_replicate
  have hcnt : ∀ a l, cnt (fun _ => (1 : BitVec 8)) a l = l := by
    intro a l; unfold cnt; rw [List.countP_eq_length.2]; · simp
    intro i _; simp
  obtain ⟨calls2, h2⟩ := calls_exist hn
  refine ⟨[(0, n)], calls2, .serial, h2, Or.inr ⟨offs, n, by rw [o1, hcnt], by omega, ho, ?_⟩⟩
  have hmem : (16384 * 1, min 16384 (n - 16384 * 1)) ∈ calls2 :=
    (calls_threaded h2).2.mem_iff.2 (List.mem_map.2 ⟨1, List.mem_range.2 (by omega), rfl⟩)
  have hl : min 16384 (n - 16384 * 1) = 16384 := by omega
  rw [hl] at hmem
  have hoff : offs[1]? = some n := by
    rw [o4 rfl 1 (by omega), hmax, List.getElem?_replicate, if_pos (by omega)]
  have hb : boolKernel (fun _ => some 1) (fun _ => some x) 1 isz isz offs (16384 * 1, 16384) =
      some (itemWrites isz ((sel (fun _ => 1) (fun _ => x) (16384 * 1) 16384).zipIdx n)) := by
    unfold boolKernel
    simp only [if_true]
    rw [show 16384 * 1 / 16384 = 1 from rfl, hoff, Option.bind_eq_bind, Option.bind_some]
    have hM' : ∀ i : Nat, i < n → (fun _ => some 1 : Int → Option (BitVec 8)) i = some ((fun _ => 1 : Nat → BitVec 8) i) := fun _ _ => rfl
    have hp := pick8_ok (isz := isz) (sv := isz) (n := n) (m := fun _ => 1) (rdM := fun _ => some 1) (v := fun _ => x) (rdV := fun _ => some x) hM' hV (16384 / 8) (16384 * 1) n (by omega)
    simp only [mul_one]
    rw [mul_one] at hp
    rw [hp]
    simp [maskBytes, pick]
  refine faults_of_write hmem hb (off := (n : Int) * isz) (x := x) ?_ ?_
  · have : sel (fun _ => (1 : BitVec 8)) (fun _ => x) (16384 * 1) 16384 = x :: sel (fun _ => 1) (fun _ => x) (16384 * 1 + 1) 16383 := by
      rw [show 16384 = 1 + 16383 from rfl, sel_add, sel_one]
      simp
    rw [this, itemWrites_cons]; simp
  · rw [hx, ho]; push_cast; omega

/-- C30, violated: a 2-D C-contiguous mask passes the checks, but the stride of its *first* dimension is used for all
elements: for every mask with at least two rows and two columns the counting pass reads outside the mask. -/
theorem C30_two_dim_violated (r c : Nat) (hr : 2 ≤ r) (hc : 2 ≤ c) (mask : List (BitVec 8)) (hm : mask.length = r * c) (sv : Int) (isz : Nat)
    (rdV : Int → Option (List β)) (raw : List Nat) (out : List β) :
    BoolFault (fun p => if 0 ≤ p then mask[p.toNat]? else none) rdV (r * c) c sv isz false false raw out := by
  refine ⟨[(0, r * c)], [(0, r * c)], .serial, .serial, Or.inl ?_⟩
  unfold boolOffsets
  have hsum : sumBooleanMask (fun p => if 0 ≤ p then mask[p.toNat]? else none) ((0 : Nat) * (c : Int)) (r * c) c = none := by
    unfold sumBooleanMask
    rw [if_neg (by omega)]
    have : ∀ l a : Nat, a ≤ r → r < a + l →
        sumLoop (fun p => if 0 ≤ p then mask[p.toNat]? else none) (c : Int) l ((a : Int) * c) = none := by
      intro l
      induction l with
      | zero => intro a _ _; omega
      | succ l ih =>
        intro a h1 h2
        rw [sumLoop]
        by_cases ha : a = r
        · subst ha
          have : (if 0 ≤ (a : Int) * c then mask[((a : Int) * c).toNat]? else none) = none := by
            rw [if_pos (by positivity), ← Int.natCast_mul, Int.toNat_natCast, List.getElem?_eq_none (by omega)]
          rw [this]; rfl
        · cases hmask : (if 0 ≤ (a : Int) * c then mask[((a : Int) * c).toNat]? else none) with
          | none => rfl
          | some b =>
            have e : (a : Int) * c + c = ((a + 1 : Nat) : Int) * c := by push_cast; ring
            rw [Option.bind_eq_bind, Option.bind_some, e, ih (a + 1) (by omega) (by omega)]; rfl
    exact this (r * c) 0 (by omega) (by have := Nat.mul_le_mul_left r hc; omega)
  rw [countCalls, hsum]; rfl

/-! ### C31 -/

section
variable {w : Nat}

/-- C31, core. -/
theorem int_index {v : Nat → List β} {x : Nat → BitVec w} {rdV : Int → Option (List β)} {rdI : Int → Option Int} {n k isz : Nat} {sv si : Int}
    {unsigned : Bool} {dflt : List β} (hV : ∀ i : Nat, i < n → rdV (i * sv) = some (v i)) (hI : ∀ j : Nat, j < k → rdI (j * si) = some (x j).toInt)
    (hlen : ∀ i, i < n → (v i).length = isz) (hd : isz ≤ dflt.length)
    (hu : unsigned = true → (isz = 1 ∨ isz = 2 ∨ isz = 4 ∨ isz = 8 ∨ isz = 16) ∧ ∀ j, j < k → (x j).msb = false)
    {threaded : Bool} (ht : threaded = false ∨ sv = isz) {calls : List (Nat × Nat)} (hc : Calls k threaded calls) (out : List β) (ho : out.length = k * isz) :
    (∀ out', Result (intKernel rdV rdI unsigned n sv si isz (k * isz) dflt) calls out out' ↔
      out' = (indexSelect v n (dflt.take isz) k fun j => indexValue unsigned (x j)).flatten) ∧
    ¬ Faults (intKernel rdV rdI unsigned n sv si isz (k * isz) dflt) calls out := by
  let item : Nat → List β := fun j => match pyIndex n (indexValue unsigned (x j)) with
    | some i => v i
    | none => dflt.take isz
  have hrd : readDefault dflt isz = some (dflt.take isz) := by unfold readDefault; rw [if_pos hd]
  have hitem : ∀ j, j < k → (item j).length = isz := by
    intro j hj
    show (match pyIndex n (indexValue unsigned (x j)) with | some i => v i | none => dflt.take isz).length = _
    split
    · next i hi =>
      unfold pyIndex at hi
      refine hlen i ?_
      split at hi
      · have := Option.some.inj hi; omega
      · split at hi
        · have := Option.some.inj hi; omega
        · cases hi
    · rw [List.length_take]; omega
  have hint : ∀ idx : Int, lookupInt rdV n sv isz dflt idx = some (match pyIndex n idx with | some i => v i | none => dflt.take isz) := by
    intro idx
    unfold lookupInt pyIndex
    by_cases h1 : 0 ≤ idx ∧ idx < n
    · rw [if_pos ⟨by omega, h1.2⟩, if_pos h1.1, if_pos h1]
      have := hV idx.toNat (by omega)
      rw [show ((idx.toNat : Nat) : Int) = idx by omega] at this
      exact this
    · by_cases h2 : -(n : Int) ≤ idx ∧ idx < 0
      · rw [if_pos ⟨h2.1, by omega⟩, if_neg (by omega), if_neg h1, if_pos h2]
        have := hV (idx + n).toNat (by omega)
        rw [show (((idx + n).toNat : Nat) : Int) = idx + n by omega] at this
        exact this
      · rw [if_neg (by omega), if_neg h1, if_neg h2]
        exact hrd
  have hlook : ∀ j, j < k → (if unsigned then lookupUInt rdV n sv isz dflt (x j).toInt else lookupInt rdV n sv isz dflt (x j).toInt) = some (item j) := by
    intro j hj
    cases hun : unsigned with
    | false =>
      show lookupInt rdV n sv isz dflt (x j).toInt = some (match pyIndex n (indexValue unsigned (x j)) with | some i => v i | none => dflt.take isz)
      rw [hint, hun]; rfl
    | true =>
      have hmsb := (hu hun).2 j hj
      have e : (x j).toInt = ((x j).toNat : Int) := by
        rw [BitVec.toInt_eq_msb_cond, hmsb]; simp
      show lookupUInt rdV n sv isz dflt (x j).toInt = some (match pyIndex n (indexValue unsigned (x j)) with | some i => v i | none => dflt.take isz)
      have e2 : indexValue unsigned (x j) = ((x j).toNat : Int) := by rw [hun]; rfl
      rw [e2, e]
      unfold lookupUInt pyIndex
      by_cases h1 : (((x j).toNat : Nat) : Int) < n
      · rw [if_pos h1, if_pos ⟨by omega, h1⟩]
        simpa using hV (x j).toNat (by omega)
      · rw [if_neg h1, if_neg (by omega), if_neg (by omega)]; exact hrd
  obtain ⟨parts, hp, hcon⟩ := calls_parts hc
  have hpart : ∀ c ∈ parts, ((c.1 : Nat) : Int) * sv = (c.1 : Int) * isz := by
    intro c hcm
    rcases ht with h | h
    · subst h
      have := calls_serial hc
      rw [this] at hp
      have := hp.mem_iff.2 hcm
      rw [List.mem_singleton] at this
      rw [this]; simp
    · rw [h]
  refine fill_result (isz := isz) (items := indexSelect v n (dflt.take isz) k fun j => indexValue unsigned (x j)) ?_ (by simp [indexSelect, ho]) hp
    (f := fun c => itemWrites isz (((List.range' c.1 c.2).map item).zipIdx c.1)) (fun c hcm => ?_) ?_
  · intro y hy
    obtain ⟨j, hj, rfl⟩ := List.mem_map.1 hy
    exact hitem j (List.mem_range.1 hj)
  · have hle := (hcon.mem hcm).2
    have hps := hpart c hcm
    obtain ⟨a, l⟩ := c
    simp only at hle hps
    unfold intKernel
    simp only
    rw [hps]
    have hfix := itemLoop_ok (isz := isz) (look := fun i => if unsigned then lookupUInt rdV n sv isz dflt i else lookupInt rdV n sv isz dflt i) hI hlook l a a hle
    split
    · rw [hrd, Option.bind_eq_bind, Option.bind_some]
      cases hun : unsigned <;> simp only [hun] at hfix ⊢ <;> simpa using hfix
    · next hf =>
      cases hun : unsigned with
      | false => simp only [hun] at hfix ⊢; simpa using hfix
      | true => exact absurd (by simpa using (hu hun).1) hf
  · have := consec_flatMap (n := k) (fun a l => itemWrites isz (((List.range' a l).map item).zipIdx a)) (fun a => by simp [itemWrites])
        (fun a l m => by rw [← List.range'_append_1, List.map_append, itemWrites_append]; simp) hcon
    rw [this]
    simp only [Nat.sub_zero]; unfold indexSelect; rw [List.range_eq_range']
    rfl

/-- C31 (partial: index types signed, or unsigned with values below half their range and item sizes 1, 2, 4, 8, 16; with threads
only contiguous values; the default value must be at least as long as an item): getitem(a, idx) returns for every index
the item that the Python index denotes, and the default value for any index out of range; no access leaves the arrays;
every length, item size, stride, index width, index value and schedule. -/
theorem C31_index_partial (v : Nat → List β) (x : Nat → BitVec w) (rdV : Int → Option (List β)) (rdI : Int → Option Int) (n k isz : Nat) (sv si : Int)
    (unsigned : Bool) (dflt : List β) (hV : ∀ i : Nat, i < n → rdV (i * sv) = some (v i)) (hI : ∀ j : Nat, j < k → rdI (j * si) = some (x j).toInt)
    (hlen : ∀ i, i < n → (v i).length = isz) (hd : isz ≤ dflt.length)
    (hu : unsigned = true → (isz = 1 ∨ isz = 2 ∨ isz = 4 ∨ isz = 8 ∨ isz = 16) ∧ ∀ j, j < k → (x j).msb = false)
    (threaded : Bool) (ht : threaded = false ∨ sv = isz) :
    (∀ out', IntResult rdV rdI unsigned n k sv si isz dflt threaded out' →
      out' = (indexSelect v n (dflt.take isz) k fun j => indexValue unsigned (x j)).flatten) ∧
    ¬ IntFault rdV rdI unsigned n k sv si isz dflt threaded ∧
    ((threaded = true → 65536 ≤ k) → [Inhabited β] → ∃ out', IntResult rdV rdI unsigned n k sv si isz dflt threaded out') := by
  refine ⟨?_, ?_, ?_⟩
  · rintro out' ⟨calls, out, hc, ho, hr⟩
    exact ((int_index hV hI hlen hd hu ht hc out ho).1 out').1 hr
  · rintro ⟨calls, out, hc, ho, hr⟩
    exact (int_index hV hI hlen hd hu ht hc out ho).2 hr
  · intro hn _
    have : ∃ calls, Calls k threaded calls := by
      cases threaded with
      | false => exact ⟨_, .serial⟩
      | true => exact calls_exist (hn rfl)
    obtain ⟨calls, hc⟩ := this
    have ho : (List.replicate (k * isz) (default : β)).length = k * isz := List.length_replicate
    exact ⟨_, calls, _, hc, ho, ((int_index hV hI hlen hd hu ht hc _ ho).1 _).2 rfl⟩

/-- int8 indices 1, -3, 5 into three 1-byte items. -/
example : ∃ out', IntResult (fun p => if p = 0 then some ['a'] else if p = 1 then some ['b'] else if p = 2 then some ['c'] else none)
      (fun p => if p = 0 then some 1 else if p = 1 then some (-3) else if p = 2 then some 5 else none) false 3 3 1 1 1 ['?'] false out' ∧ out' = ['b', 'a', '?'] := by
  have h := C31_index_partial (w := 8) (fun i => if i = 0 then ['a'] else if i = 1 then ['b'] else ['c']) (fun j => if j = 0 then 1 else if j = 1 then -3 else 5)
    (fun p => if p = 0 then some ['a'] else if p = 1 then some ['b'] else if p = 2 then some ['c'] else none)
    (fun p => if p = 0 then some 1 else if p = 1 then some (-3) else if p = 2 then some 5 else none) 3 3 1 1 1 false ['?']
    (by intro i hi; have : i = 0 ∨ i = 1 ∨ i = 2 := by omega
        rcases this with rfl | rfl | rfl <;> rfl)
    (by intro i hi; have : i = 0 ∨ i = 1 ∨ i = 2 := by omega
        rcases this with rfl | rfl | rfl <;> rfl)
    (by intro i hi; have : i = 0 ∨ i = 1 ∨ i = 2 := by omega
        rcases this with rfl | rfl | rfl <;> rfl) (by decide) (by simp) false (Or.inl rfl)
  obtain ⟨out', ho⟩ := h.2.2 (by simp)
  exact ⟨out', ho, by rw [h.1 out' ho]; decide⟩

/-- C31, violated: unsigned index arrays are read as signed numbers. Whenever an index has its top bit set - it may well be in
range - the call reads in front of the value array (any item size 1, 2, 4, 8 or 16, any mode). -/
theorem C31_unsigned_violated (x : Nat → BitVec w) (rdV : Int → Option (List β)) (rdI : Int → Option Int) (n k isz : Nat) (sv si : Int) (dflt : List β)
    (threaded : Bool) (hisz : isz = 1 ∨ isz = 2 ∨ isz = 4 ∨ isz = 8 ∨ isz = 16) (hsv : 0 < sv) (hfront : ∀ p, p < 0 → rdV p = none)
    (hI : ∀ j : Nat, j < k → rdI (j * si) = some (x j).toInt) (j : Nat) (hj : j < k) (hx : (x j).msb = true) (hk : threaded = true → 65536 ≤ k) [Inhabited β] :
    IntFault rdV rdI true n k sv si isz dflt threaded := by
  have : ∃ calls, Calls k threaded calls := by
    cases threaded with
    | false => exact ⟨_, .serial⟩
    | true => exact calls_exist (hk rfl)
  obtain ⟨calls, hc⟩ := this
  refine ⟨calls, List.replicate (k * isz) default, hc, List.length_replicate, Or.inl ?_⟩
  obtain ⟨parts, hp, hcon⟩ := calls_parts hc
  have hneg : (x j).toInt < 0 := by
    rw [BitVec.toInt_eq_msb_cond, hx]; simp; exact_mod_cast (x j).isLt
  have hlook : lookupUInt rdV n sv isz dflt (x j).toInt = none := by
    unfold lookupUInt
    rw [if_pos (by omega)]
    exact hfront _ (Int.mul_neg_of_neg_of_pos hneg hsv)
  have hex : ∃ c ∈ parts, c.1 ≤ j ∧ j < c.1 + c.2 := by
    have : ∀ (parts : List (Nat × Nat)) a, Consec k a parts → a ≤ j → ∃ c ∈ parts, c.1 ≤ j ∧ j < c.1 + c.2 := by
      intro parts
      induction parts with
      | nil => intro a h1 h2; have : a = k := h1; omega
      | cons p ps ih =>
        intro a h1 h2
        obtain ⟨s, l⟩ := p
        obtain ⟨rfl, h1⟩ := h1
        by_cases h : j < s + l
        · exact ⟨(s, l), by simp, h2, h⟩
        · obtain ⟨c, hc, h3⟩ := ih _ h1 (by omega)
          exact ⟨c, by simp [hc], h3⟩
    exact this parts 0 hcon (by omega)
  obtain ⟨c, hcm, hc1, hc2⟩ := hex
  refine allWrites_none ⟨c, hp.mem_iff.2 hcm, ?_⟩
  have hle := (hcon.mem hcm).2
  obtain ⟨a, l⟩ := c
  unfold intKernel
  simp only
  rw [if_pos (by simpa using hisz)]
  cases readDefault dflt isz with
  | none => rfl
  | some d =>
    rw [Option.bind_eq_bind, Option.bind_some, if_pos trivial]
    exact itemLoop_none hI l a _ hle ⟨j, hc1, hc2, hlook⟩

/-- uint8 index 200 into 250 items. -/
example : IntFault (fun p => if 0 ≤ p ∧ p < 250 then some ['a'] else none) (fun p => if p = 0 then some (200#8).toInt else none) true 250 1 1 1 1 ['?'] false :=
  C31_unsigned_violated (w := 8) (fun _ => 200#8) _ _ 250 1 1 1 1 ['?'] false (Or.inl rfl) (by decide) (fun p hp => by simp; omega)
    (fun j hj => by obtain rfl : j = 0 := by omega
                    rfl) 0 (by decide) (by decide) (by simp)

/-- C31, violated: with an unsigned index array and any other item size, the output pointer is advanced twice per item. For an odd
number of indices the call runs past the end of the output. -/
theorem C31_unsigned_variable_violated (x : List β) (rdI : Int → Option Int) (n k isz : Nat) (sv si : Int) (dflt : List β)
    (hisz : isz ≠ 1 ∧ isz ≠ 2 ∧ isz ≠ 4 ∧ isz ≠ 8 ∧ isz ≠ 16) (h0 : 0 < isz) (hodd : k % 2 = 1) [Inhabited β] :
    IntFault (fun _ => some x) rdI true n k sv si isz dflt false := by
  refine ⟨[(0, k)], List.replicate (k * isz) default, .serial, List.length_replicate, Or.inl (allWrites_none ⟨(0, k), by simp, ?_⟩)⟩
  unfold intKernel
  simp only
  rw [if_neg (by simpa using hisz), if_pos trivial, if_pos (by simp)]
  have hto : ((((0 : Nat) : Int) * sv).toNat) = 0 := by simp
  rw [hto, Nat.zero_add]
  have : ∀ r q : Nat, ∀ pI : Int, q + r = k → r % 2 = 1 → uintVarLoop (lookupUInt (fun _ => some x) n sv isz dflt) rdI si isz (k * isz) (k * isz) (q * isz) pI = none := by
    intro r
    induction r using Nat.strongRecOn with
    | _ r ih =>
      intro q pI hq hr
      rw [uintVarLoop]
      have hne : q * isz ≠ k * isz := by
        intro h
        have := Nat.eq_of_mul_eq_mul_right h0 h
        omega
      rw [if_neg hne]
      split
      · next hlt =>
        cases rdI pI with
        | none => rfl
        | some i =>
          simp only [Option.bind_eq_bind, Option.bind_some]
          cases lookupUInt (fun _ => some x) n sv isz dflt i with
          | none => rfl
          | some y =>
            rw [Option.bind_some]
            have e : q * isz + isz + isz = (q + 2) * isz := by ring
            rw [e]
            by_cases hr1 : r = 1
            · have : uintVarLoop (lookupUInt (fun _ => some x) n sv isz dflt) rdI si isz (k * isz) (k * isz) ((q + 2) * isz) (pI + si) = none := by
                rw [uintVarLoop, if_neg, dif_neg]
                · intro h
                  have : (q + 2) * isz = k * isz + isz := by rw [← hq, hr1]; ring
                  omega
                · intro h
                  have := Nat.eq_of_mul_eq_mul_right h0 h
                  omega
              rw [this]; rfl
            · rw [ih (r - 2) (by omega) (q + 2) _ (by omega) (by omega)]; rfl
      · rfl
  have := this k 0 ((0 : Nat) * si) (by omega) hodd
  simpa using this

/-- C31, violated: and for an even number it writes every second item only; the others keep whatever was in memory (here: two
indices, any junk `u`). -/
theorem C31_unsigned_variable_junk_violated (x u : List β) (isz : Nat) (hisz : isz ≠ 1 ∧ isz ≠ 2 ∧ isz ≠ 4 ∧ isz ≠ 8 ∧ isz ≠ 16) (h0 : 0 < isz)
    (hx : x.length = isz) (hu : u.length = isz) (dflt : List β) :
    IntResult (fun _ => some x) (fun _ => some 0) true 1 2 isz 4 isz dflt false (x ++ u) := by
  refine ⟨[(0, 2)], u ++ u, .serial, by simp [hu]; omega, [(0, x)], [(0, x)], ?_, List.Perm.refl _, ?_⟩
  · have : intKernel (fun _ => some x) (fun _ => some 0) true 1 isz 4 isz (2 * isz) dflt (0, 2) = some [(0, x)] := by
      unfold intKernel
      simp only
      rw [if_neg (by simpa using hisz), if_pos trivial, if_pos (by simp)]
      simp only [Nat.cast_zero, zero_mul, Int.toNat_zero, Nat.zero_add]
      rw [uintVarLoop, if_neg (by omega), dif_pos (by omega)]
      rw [uintVarLoop, if_pos (by omega)]
      simp [lookupUInt]
    rw [allWrites, this]; rfl
  · rw [runWrites, write, if_pos (by simp [hx, hu])]
    simp [runWrites, hx, ← hu]

/-- C31, violated: with threads, the output position of a block is computed with the stride of the *values*. For a view with a
stride of at least two items and at least 65536 indices, the call writes outside the result. -/
theorem C31_threaded_strided_violated (x : List β) (rdI : Int → Option Int) (ix : Nat → Int) (n k isz : Nat) (sv si : Int) (dflt : List β) (hk : 65536 ≤ k)
    (hisz : isz = 1 ∨ isz = 2 ∨ isz = 4 ∨ isz = 8 ∨ isz = 16) (hx : x.length = isz) (hsv : 2 * isz ≤ sv) (hd : isz ≤ dflt.length)
    (hI : ∀ j : Nat, j < k → rdI (j * si) = some (ix j)) [Inhabited β] :
    IntFault (fun _ => some x) rdI false n k sv si isz dflt true := by
  obtain ⟨calls, hc⟩ := calls_exist hk
  refine ⟨calls, List.replicate (k * isz) default, hc, List.length_replicate, ?_⟩
  let b := (k + 16383) / 16384 - 1
  have hmem : (16384 * b, min 16384 (k - 16384 * b)) ∈ calls :=
    (calls_threaded hc).2.mem_iff.2 (List.mem_map.2 ⟨b, List.mem_range.2 (by omega), rfl⟩)
  have hrd : readDefault dflt isz = some (dflt.take isz) := by unfold readDefault; rw [if_pos hd]
  have hlook : ∀ i, ∃ y, lookupInt (fun _ => some x) n sv isz dflt i = some y ∧ y.length = isz := by
    intro i
    unfold lookupInt
    split
    · exact ⟨x, rfl, hx⟩
    · exact ⟨_, hrd, by rw [List.length_take]; omega⟩
  have hloop : ∀ l a : Nat, ∀ o : Int, a + l ≤ k → ∃ ws, itemLoop (lookupInt (fun _ => some x) n sv isz dflt) rdI si isz l (a * si) o = some ws ∧
      (0 < l → ∃ y, (o, y) ∈ ws ∧ y.length = isz) := by
    intro l
    induction l with
    | zero => intro a o _; exact ⟨[], rfl, by omega⟩
    | succ l ih =>
      intro a o h
      obtain ⟨ws, h1, _⟩ := ih (a + 1) (o + isz) (by omega)
      obtain ⟨y, h2, h3⟩ := hlook (ix a)
      have e : (a : Int) * si + si = ((a + 1 : Nat) : Int) * si := by push_cast; ring
      refine ⟨(o, y) :: ws, ?_, fun _ => ⟨y, by simp, h3⟩⟩
      rw [itemLoop, hI a (by omega), e, h1]
      simp only [Option.bind_eq_bind, Option.bind_some, h2]
  obtain ⟨ws, h1, h2⟩ := hloop (min 16384 (k - 16384 * b)) (16384 * b) (((16384 * b : Nat) : Int) * sv) (by omega)
  obtain ⟨y, h3, h4⟩ := h2 (by omega)
  refine faults_of_write hmem (ws := ws) ?_ h3 ?_
  · unfold intKernel
    simp only
    rw [if_pos (by simpa using hisz), hrd, Option.bind_eq_bind, Option.bind_some]
    simpa using h1
  · intro ⟨_, h6⟩
    rw [h4, List.length_replicate] at h6
    have h7 : (k : Int) ≤ 2 * ((16384 * b : Nat) : Int) := by omega
    have h8 : (((16384 * b : Nat) : Int)) * (2 * isz) ≤ ((16384 * b : Nat) : Int) * sv := Int.mul_le_mul_of_nonneg_left hsv (by omega)
    have h9 : (k : Int) * isz ≤ 2 * ((16384 * b : Nat) : Int) * isz := Int.mul_le_mul_of_nonneg_right h7 (by omega)
    have : 0 < isz := by omega
    have h10 : 2 * ((16384 * b : Nat) : Int) * isz = ((16384 * b : Nat) : Int) * (2 * isz) := by ring
    have h11 : ((k * isz : Nat) : Int) = (k : Int) * isz := Int.natCast_mul _ _
    rw [h11] at h6
    generalize ((16384 * b : Nat) : Int) = B at *
    omega

/-- C31, violated: for long double (and complex128) values the default value is an 8 byte object of which 16 bytes are read at the
start of every call. -/
theorem C31_longdouble_default_violated (rdV : Int → Option (List β)) (rdI : Int → Option Int) (unsigned : Bool) (n k : Nat) (sv si : Int) (dflt : List β)
    (hd : dflt.length = 8) [Inhabited β] : IntFault rdV rdI unsigned n k sv si 16 dflt false := by
  refine ⟨[(0, k)], List.replicate (k * 16) default, .serial, List.length_replicate, Or.inl (allWrites_none ⟨(0, k), by simp, ?_⟩)⟩
  unfold intKernel readDefault
  simp [hd]

end

end Pnumpy.Props
