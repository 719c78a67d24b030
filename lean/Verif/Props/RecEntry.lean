import Verif.Proofs.RecEntry
/-
Property theorems C77: the C function recarray_to_colmajor as called with Python objects.
-/
namespace Pnumpy.Props
open Spec RecArray RecEntry

/-- Arguments as the documentation asks for: a contiguous record array `r`, an int64 array of the field offsets `f`, and an object array of
preallocated contiguous arrays `outs`, one for each field, each with as many elements as there are records. -/
structure GoodArgs (w : World) (r offs objs : Arr) (outs : List Arr) (f : Nat → Nat) : Prop where
  isVoid : r.typenum = NPY_VOID
  stride0 : r.strides.head? = some (r.itemsize : Int)
  nonzero : 0 < r.itemsize
  fits : r.itemsize < 2 ^ 63
  contig : CContig r
  inBuf : InBuffer w.bufs r
  isObject : objs.typenum = NPY_OBJECT
  fields : outs ≠ []
  nObjs : count objs.dims = outs.length
  nOffs : count offs.dims = outs.length
  slot : ∀ (i : Nat) (out : Arr), outs[i]? = some out → ∃ id : Nat, objs.slots[i]? = some (some id) ∧ w.arrays[id]? = some out
  offset : ∀ i : Nat, i < outs.length → ((w.bufs.getD offs.buf []).drop (offs.start + 8 * i)).take 8 = le 8 (f i)
  inside : ∀ (i : Nat) (out : Arr), outs[i]? = some out → f i + out.itemsize ≤ r.itemsize
  outContig : ∀ out ∈ outs, CContig out
  outInBuf : ∀ out ∈ outs, InBuffer w.bufs out
  outCount : ∀ out ∈ outs, count out.dims = count r.dims
  outApart : ∀ (i j : Nat) (o o' : Arr), i ≠ j → outs[i]? = some o → outs[j]? = some o' → ∀ b q, ¬ (Owns o b q ∧ Owns o' b q)
  inApart : ∀ out ∈ outs, out.buf ≠ r.buf

/-- What the caller gets: every element of every output array is the field of the record at the same position, and no byte outside the
output arrays has changed. -/
def Converted (bufs bufs' : List (List Byte)) (r : Arr) (outs : List Arr) (f : Nat → Nat) : Prop :=
  (∀ (i : Nat) (out : Arr), outs[i]? = some out → ∀ idx jdx, inBounds r.dims idx → inBounds out.dims jdx → posC r.dims idx = posC out.dims jdx →
    elemBytes bufs' out jdx = ((elemBytes bufs r idx).drop (f i)).take out.itemsize) ∧
  bufs'.map List.length = bufs.map List.length ∧
  ∀ b q, (∀ out ∈ outs, ¬ Owns out b q) → (bufs'.getD b [])[q]? = (bufs.getD b [])[q]?

theorem get2_getD (bufs : List (List Byte)) (b q : Nat) : get2 bufs b q = (bufs.getD b [])[q]? := by
  unfold get2
  rw [List.getD_eq_getElem?_getD]
  cases bufs[b]? <;> simp

/-- The columns handed to the conversion. -/
def colsOf (f : Nat → Nat) (outs : List Arr) : List (Col × Nat × Nat) := outs.mapIdx fun i out => (⟨f i, out.itemsize⟩, out.buf, out.start)

theorem colsOf_get (f : Nat → Nat) (outs : List Arr) (i : Nat) : (colsOf f outs)[i]? = outs[i]?.map fun out => (⟨f i, out.itemsize⟩, out.buf, out.start) := by
  simp [colsOf]

theorem prepare_good {w : World} {r offs objs : Arr} {outs : List Arr} {f : Nat → Nat} {a b c : Nat} (ha : w.arrays[a]? = some r) (hb : w.arrays[b]? = some offs)
    (hc : w.arrays[c]? = some objs) (h : GoodArgs w r offs objs outs f) :
    prepare w true [some a, some b, some c] = .convert (w.data r) r.itemsize (count r.dims) (colsOf f outs) := by
  obtain ⟨s0, ss, hs⟩ : ∃ s0 ss, r.strides = s0 :: ss := by
    have := h.stride0
    cases hr : r.strides with
    | nil => rw [hr] at this; simp at this
    | cons s0 ss => exact ⟨s0, ss, rfl⟩
  have hs0 : s0 = (r.itemsize : Int) := by have := h.stride0; rw [hs] at this; simpa using this
  have hcols : colsUpTo w (w.data offs) objs.slots outs.length = some (colsOf f outs) := by
    have hl : (colsOf f outs).length = outs.length := by simp [colsOf]
    have := colsUpTo_ok (w := w) (offs := w.data offs) (slots := objs.slots) (cols := colsOf f outs) outs.length (by omega) ?_
    · rw [this, List.take_of_length_le (by omega)]
    · intro i c hci
      rw [colsOf_get] at hci
      obtain ⟨out, ho, rfl⟩ := Option.map_eq_some_iff.1 hci
      have hi : i < outs.length := (List.getElem?_eq_some_iff.1 ho).1
      obtain ⟨id, h1, h2⟩ := h.slot i out ho
      have hoff : int64At (w.data offs) i = some (f i : Int) := by
        refine int64At_le ?_ ?_
        · have := h.offset i hi
          unfold World.data
          rw [List.drop_drop]; exact this
        · have := h.inside i out ho
          have := h.fits
          omega
      unfold colAt World.arr?
      rw [h1, hoff]
      simp [h2]
  unfold prepare World.arr?
  simp only [Option.bind_some, ha, hb, hc, hs, hs0, calcArrayLength_count, h.nObjs, h.nOffs, h.isVoid, h.isObject, hcols]
  simp

theorem good_columns {w : World} {r offs objs : Arr} {outs : List Arr} {f : Nat → Nat} (h : GoodArgs w r offs objs outs f) :
    Valid r.itemsize ((colsOf f outs).map Prod.fst) ∧ (colsOf f outs).map Prod.fst ≠ [] ∧ count r.dims * r.itemsize ≤ (w.data r).length := by
  refine ⟨?_, ?_, ?_⟩
  · intro c hc
    obtain ⟨p, hp, rfl⟩ := List.mem_map.1 hc
    obtain ⟨i, hi⟩ := List.mem_iff_getElem?.1 hp
    rw [colsOf_get] at hi
    obtain ⟨out, ho, rfl⟩ := Option.map_eq_some_iff.1 hi
    have := h.inside i out ho
    simp only; omega
  · intro hn
    have := congrArg List.length hn
    simp only [colsOf, List.length_map, List.length_mapIdx, List.length_nil] at this
    exact h.fields (List.length_eq_zero_iff.1 this)
  · obtain ⟨buf, h1, h2⟩ := h.inBuf
    unfold World.data
    rw [List.getD_eq_getElem?_getD, h1, Option.getD_some, List.length_drop]
    omega

/-- C77 (partial: arguments as documented, and the workspace allocation succeeds; the violations are below): the call cannot end in any way but returning
None with every output element equal to the field of its record and nothing else changed; and it can end. -/
theorem C77_converts_partial (w : World) (r offs objs : Arr) (outs : List Arr) (f : Nat → Nat) (a b c : Nat) (ha : w.arrays[a]? = some r)
    (hb : w.arrays[b]? = some offs) (hc : w.arrays[c]? = some objs) (h : GoodArgs w r offs objs outs f) :
    (∀ o, Call w true [some a, some b, some c] o → ∃ bufs', o = .returned bufs' ∧ Converted w.bufs bufs' r outs f) ∧
    ∃ o, Call w true [some a, some b, some c] o := by
  have hprep := prepare_good ha hb hc h
  obtain ⟨hv, hne, hrec⟩ := good_columns h
  obtain ⟨chunk, hch⟩ : ∃ chunk, chunkRows r.itemsize = some chunk := by unfold chunkRows; rw [if_neg (by have := h.nonzero; omega)]; exact ⟨_, rfl⟩
  let T := target (w.data r) r.itemsize (count r.dims) ((colsOf f outs).map Prod.fst)
  have hcol : ∀ (i : Nat) (out : Arr), outs[i]? = some out → ((colsOf f outs).map Prod.fst)[i]? = some (⟨f i, out.itemsize⟩ : Col) := by
    intro i out ho; rw [List.getElem?_map, colsOf_get, ho]; rfl
  have hT : ∀ (i : Nat) (out : Arr), outs[i]? = some out → T i = fieldColumn (w.data r) r.itemsize (f i) out.itemsize (count r.dims) := by
    intro i out ho
    show target _ _ _ _ i = _
    unfold target
    rw [hcol i out ho]; rfl
  have hTl : ∀ (i : Nat) (out : Arr), outs[i]? = some out → (T i).length = count r.dims * out.itemsize := by
    intro i out ho
    rw [hT i out ho]
    exact fieldColumn_length hrec (h.inside i out ho)
  have hdest : ∀ (i b p : Nat), ((colsOf f outs).map Prod.snd)[i]? = some (b, p) → ∃ out, outs[i]? = some out ∧ b = out.buf ∧ p = out.start := by
    intro i b p hd
    rw [List.getElem?_map, colsOf_get] at hd
    cases ho : outs[i]? with
    | none => rw [ho] at hd; simp at hd
    | some out => rw [ho] at hd; simp at hd; exact ⟨out, rfl, hd.1.symm, hd.2.symm⟩
  have hpl : Placed ((colsOf f outs).map Prod.snd) T w.bufs := by
    refine ⟨?_, ?_⟩
    · intro i b p hd
      obtain ⟨out, ho, rfl, rfl⟩ := hdest i b p hd
      obtain ⟨buf, h1, h2⟩ := h.outInBuf out (List.mem_of_getElem? ho)
      refine ⟨buf, h1, ?_⟩
      rw [hTl i out ho]
      rw [h.outCount out (List.mem_of_getElem? ho)] at h2
      exact h2
    · intro i j b p p' hij hd hd' q hq
      obtain ⟨o, ho, rfl, rfl⟩ := hdest i b p hd
      obtain ⟨o', ho', hb', rfl⟩ := hdest j _ p' hd'
      rw [hTl i o ho, hTl j o' ho'] at hq
      refine h.outApart i j o o' hij ho ho' o.buf q ⟨⟨rfl, hq.1.1, ?_⟩, hb', hq.2.1, ?_⟩
      · rw [h.outCount o (List.mem_of_getElem? ho)]; exact hq.1.2
      · rw [h.outCount o' (List.mem_of_getElem? ho')]; exact hq.2.2
  have hlen : ((colsOf f outs).map Prod.snd).length = ((colsOf f outs).map Prod.fst).length := by simp
  have hrun : ∀ calls ws ws', Calls (count r.dims) calls → AllConv (w.data r) r.itemsize chunk ((colsOf f outs).map Prod.fst) calls ws → ws'.Perm ws →
      ∃ bufs', runHeap ((colsOf f outs).map Prod.snd) w.bufs ws' = some bufs' ∧ Converted w.bufs bufs' r outs f := by
    intro calls ws ws' hcalls hall hp
    obtain ⟨k1, k2⟩ := rec_calls hcalls
    obtain ⟨ws0, g1, gu, g2, g3⟩ := rec_all hrec hv hne hch calls k1
    obtain rfl := gu ws hall
    obtain ⟨bufs', e1, e2, e3, e4⟩ := runHeap_ok ws' w.bufs hpl (fun x hx => by
      have := g2 x (hp.mem_iff.1 hx)
      rw [hlen]; exact this)
    refine ⟨bufs', e1, ?_, e2, ?_⟩
    · intro i out ho idx jdx hidx hjdx hpos
      have hom := List.mem_of_getElem? ho
      have hin := h.inside i out ho
      have hs := posC_lt _ _ hidx
      have hro := h.contig idx hidx
      have hoo := h.outContig out hom jdx hjdx
      obtain ⟨s, hse⟩ : ∃ s, s = posC r.dims idx := ⟨_, rfl⟩
      rw [← hpos, ← hse] at hoo
      rw [← hse] at hs hro
      have hpiece : Piece (T i) ((s * out.itemsize : Nat) : Int) (field (w.data r) r.itemsize (f i) out.itemsize s) := by
        rw [hT i out ho]
        have := piece_rows hrec hin (s := s) (m := 1) (by omega)
        simpa using this
      have hfl := field_length hrec hin hs
      have hrhs : ((elemBytes w.bufs r idx).drop (f i)).take out.itemsize = field (w.data r) r.itemsize (f i) out.itemsize s := by
        unfold elemBytes field World.data
        rw [hro, List.drop_take, List.take_take, Nat.min_eq_left (by omega), List.drop_drop, List.drop_drop]
        congr 2
        have : ((r.start : Int) + (s : Int) * (r.itemsize : Int)).toNat = r.start + s * r.itemsize := by
          rw [← Int.natCast_mul, ← Int.natCast_add, Int.toNat_natCast]
        omega
      rw [hrhs]
      have hst : ((out.start : Int) + (s : Int) * (out.itemsize : Int)).toNat = out.start + s * out.itemsize := by
        rw [← Int.natCast_mul, ← Int.natCast_add, Int.toNat_natCast]
      unfold elemBytes
      rw [hoo, hst]
      have hdi : ((colsOf f outs).map Prod.snd)[i]? = some (out.buf, out.start) := by
        rw [List.getElem?_map, colsOf_get, ho]; rfl
      apply List.ext_getElem?
      intro k
      rw [List.getElem?_take, List.getElem?_drop]
      by_cases hk : k < out.itemsize
      · rw [if_pos hk, ← get2_getD]
        have hmul := Nat.mul_le_mul_right out.itemsize (Nat.succ_le_of_lt hs)
        rw [Nat.succ_mul] at hmul
        have hj : s * out.itemsize + k < (T i).length := by rw [hTl i out ho]; omega
        have hcov : Covers ws' i (s * out.itemsize + k) := by
          obtain ⟨cc, hcm, hc1, hc2⟩ := k2 s hs
          have m1 := Nat.mul_le_mul_right out.itemsize hc1
          have m2 := Nat.mul_le_mul_right out.itemsize (Nat.succ_le_of_lt hc2)
          rw [Nat.succ_mul] at m2
          obtain ⟨o, x, hm, hx⟩ := g3 cc hcm i _ (s * out.itemsize + k) (hcol i out ho) (by simp only; omega) (by simp only; omega)
          exact ⟨o, x, hp.mem_iff.2 hm, hx⟩
        have := e3 i out.buf out.start _ hdi hj (Or.inl hcov)
        rw [Nat.add_assoc, this]
        have := hpiece.get (j := s * out.itemsize + k) (by omega) (by rw [hfl]; omega)
        rw [← this]; congr 1; omega
      · rw [if_neg hk, List.getElem?_eq_none (by omega)]
    · intro b q hq
      rw [← get2_getD, ← get2_getD]
      refine e4 b q ?_
      intro i p hd hin
      obtain ⟨out, ho, rfl, rfl⟩ := hdest i b p hd
      rw [hTl i out ho] at hin
      refine hq out (List.mem_of_getElem? ho) ⟨rfl, hin.1, ?_⟩
      rw [h.outCount out (List.mem_of_getElem? ho)]; exact hin.2
  refine ⟨?_, ?_⟩
  · intro o ho
    cases ho with
    | raised hp => rw [hprep] at hp; cases hp
    | crash hp => rw [hprep] at hp; cases hp
    | divide hp hd => rw [hprep] at hp; cases hp; rw [hch] at hd; cases hd
    | reads hp hd hcalls hm hcv =>
      rw [hprep] at hp; cases hp
      rw [hch] at hd; cases hd
      have := (rec_calls hcalls).1 _ hm
      obtain ⟨ws, g1, _⟩ := conv_ok hrec hv hne hch this.2 _ _ (Nat.add_sub_of_le this.1)
      have := conv_det hcv g1
      cases this
    | writes hp hd hcalls hall hperm hrun' =>
      rw [hprep] at hp; cases hp
      rw [hch] at hd; cases hd
      obtain ⟨bufs', e1, _⟩ := hrun _ _ _ hcalls hall hperm
      rw [e1] at hrun'; cases hrun'
    | returned hp hd hcalls hall hperm hrun' =>
      rw [hprep] at hp; cases hp
      rw [hch] at hd; cases hd
      obtain ⟨bufs', e1, e2⟩ := hrun _ _ _ hcalls hall hperm
      rw [e1] at hrun'; cases hrun'
      exact ⟨_, rfl, e2⟩
  · obtain ⟨calls, hcalls⟩ : ∃ calls, Calls (count r.dims) calls := by
      by_cases h : 16384 < count r.dims
      · exact ⟨_, .unthreaded h⟩
      · exact ⟨_, .small h⟩
    obtain ⟨ws, g1, _⟩ := rec_all hrec hv hne hch calls (rec_calls hcalls).1
    obtain ⟨bufs', e1, _⟩ := hrun calls ws ws hcalls g1 (List.Perm.refl _)
    exact ⟨_, .returned hprep hch hcalls g1 (List.Perm.refl _) e1⟩

/-! A concrete call: two records of three bytes, a one-byte field at 2 and a two-byte field at 0, offsets as int64. -/

/-- Buffer 0: the records `abc`, `ABC`; buffer 1: the offsets 2 and 0; buffers 2 and 3: the outputs; buffer 4: nothing. -/
def sampleWorld : World where
  bufs := [[97, 98, 99, 65, 66, 67], le 8 2 ++ le 8 0, [0, 0], [0, 0, 0, 0], []]
  arrays := [⟨20, 3, [2], [3], 0, 0, []⟩, ⟨7, 8, [2], [8], 1, 0, []⟩, ⟨17, 8, [2], [8], 4, 0, [some 3, some 4]⟩, ⟨1, 1, [2], [1], 2, 0, []⟩, ⟨3, 2, [2], [2], 3, 0, []⟩]

theorem inBounds_one {n : Nat} {idx : List Nat} (h : inBounds [n] idx) : ∃ i, idx = [i] ∧ i < n := by
  match idx with
  | [] => simp [inBounds] at h
  | [i] => exact ⟨i, rfl, h.1⟩
  | _ :: _ :: _ => simp [inBounds] at h

theorem contig_one (t sz n buf start : Nat) (sl : List (Option Nat)) : CContig ⟨t, sz, [n], [(sz : Int)], buf, start, sl⟩ := by
  intro idx h
  obtain ⟨i, rfl, _⟩ := inBounds_one h
  simp [Spec.offset, posC, count]; ring

/-- The call of the example is as documented. -/
theorem sample_good : GoodArgs sampleWorld ⟨20, 3, [2], [3], 0, 0, []⟩ ⟨7, 8, [2], [8], 1, 0, []⟩ ⟨17, 8, [2], [8], 4, 0, [some 3, some 4]⟩
    [⟨1, 1, [2], [1], 2, 0, []⟩, ⟨3, 2, [2], [2], 3, 0, []⟩] (fun i => if i = 0 then 2 else 0) where
  isVoid := rfl
  stride0 := rfl
  nonzero := by decide
  fits := by decide
  contig := contig_one 20 3 2 0 0 []
  inBuf := ⟨_, rfl, by decide⟩
  isObject := rfl
  fields := by simp
  nObjs := rfl
  nOffs := rfl
  slot := by
    intro i out h
    match i with
    | 0 => obtain rfl := Option.some.inj h; exact ⟨3, rfl, rfl⟩
    | 1 => obtain rfl := Option.some.inj h; exact ⟨4, rfl, rfl⟩
    | _ + 2 => simp at h
  offset := by
    intro i hi
    match i with
    | 0 => decide
    | 1 => decide
    | i + 2 => simp only [List.length_cons, List.length_nil] at hi; omega
  inside := by
    intro i out h
    match i with
    | 0 => obtain rfl := Option.some.inj h; decide
    | 1 => obtain rfl := Option.some.inj h; decide
    | _ + 2 => simp at h
  outContig := by
    intro out h
    simp only [List.mem_cons, List.not_mem_nil, or_false] at h
    rcases h with rfl | rfl
    · exact contig_one 1 1 2 2 0 []
    · exact contig_one 3 2 2 3 0 []
  outInBuf := by
    intro out h
    simp only [List.mem_cons, List.not_mem_nil, or_false] at h
    rcases h with rfl | rfl
    · exact ⟨_, rfl, by decide⟩
    · exact ⟨_, rfl, by decide⟩
  outCount := by
    intro out h
    simp only [List.mem_cons, List.not_mem_nil, or_false] at h
    rcases h with rfl | rfl <;> rfl
  outApart := by
    intro i j o o' hij hi hj b q h
    obtain ⟨⟨h1, _⟩, h2, _⟩ := h
    match i, j with
    | 0, 0 => exact hij rfl
    | 0, 1 => obtain rfl := Option.some.inj hi; obtain rfl := Option.some.inj hj; simp at h1 h2; omega
    | 1, 0 => obtain rfl := Option.some.inj hi; obtain rfl := Option.some.inj hj; simp at h1 h2; omega
    | 1, 1 => exact hij rfl
    | _ + 2, _ => simp at hi
    | _, _ + 2 => simp at hj
  inApart := by
    intro out h
    simp only [List.mem_cons, List.not_mem_nil, or_false] at h
    rcases h with rfl | rfl <;> decide

/-- It returns, and the second element of the first output is the last byte of the second record. -/
example : ∃ bufs', Call sampleWorld true [some 0, some 1, some 2] (.returned bufs') ∧ elemBytes bufs' ⟨1, 1, [2], [1], 2, 0, []⟩ [1] = [67] := by
  obtain ⟨h1, o, ho⟩ := C77_converts_partial sampleWorld _ _ _ _ _ 0 1 2 rfl rfl rfl sample_good
  obtain ⟨bufs', rfl, h2, _⟩ := h1 o ho
  refine ⟨bufs', ho, ?_⟩
  rw [h2 0 _ rfl [1] [1] ⟨by decide, trivial⟩ ⟨by decide, trivial⟩ rfl]
  decide

/-! ### What is checked -/

/-- C77: with another number of arguments than three, or with three arrays (the first not 0-dimensional) that fail one of the checks, the call raises ValueError and changes nothing. -/
theorem C77_rejects (w : World) (alloc : Bool) :
    (∀ args o, args.length ≠ 3 → Call w alloc args o → ∃ msg, o = .raised msg w.bufs) ∧
    ∀ (a b c : Nat) (r offs objs : Arr) o, w.arrays[a]? = some r → w.arrays[b]? = some offs → w.arrays[c]? = some objs → r.strides ≠ [] →
      (r.strides.head? ≠ some (r.itemsize : Int) ∨ r.typenum ≠ NPY_VOID ∨ objs.typenum ≠ NPY_OBJECT ∨ count objs.dims ≠ count offs.dims) →
      Call w alloc [some a, some b, some c] o → ∃ msg, o = .raised msg w.bufs := by
  have key : ∀ args msg, prepare w alloc args = .raises msg → ∀ o, Call w alloc args o → ∃ msg, o = .raised msg w.bufs := by
    intro args msg hp o ho
    cases ho with
    | raised => exact ⟨_, rfl⟩
    | crash h => rw [hp] at h; cases h
    | divide h => rw [hp] at h; cases h
    | reads h => rw [hp] at h; cases h
    | writes h => rw [hp] at h; cases h
    | returned h => rw [hp] at h; cases h
  refine ⟨?_, ?_⟩
  · intro args o hl ho
    refine key args "recarray_to_colmajor must input 3 numpy arrays" ?_ o ho
    match args with
    | [] => rfl
    | [_] => rfl
    | [_, _] => rfl
    | [_, _, _] => simp at hl
    | _ :: _ :: _ :: _ :: _ => rfl
  · intro a b c r offs objs o ha hb hc hs hbad ho
    obtain ⟨s0, ss, hs⟩ : ∃ s0 ss, r.strides = s0 :: ss := by
      cases hr : r.strides with
      | nil => exact absurd hr hs
      | cons s0 ss => exact ⟨s0, ss, rfl⟩
    obtain ⟨msg, hm⟩ : ∃ msg, prepare w alloc [some a, some b, some c] = .raises msg := by
      unfold prepare World.arr?
      simp only [Option.bind_some, ha, hb, hc, hs, calcArrayLength_count]
      rw [hs] at hbad
      by_cases h1 : (r.itemsize : Int) = s0
      · rw [if_neg (by simpa using h1)]
        by_cases h2 : r.typenum = NPY_VOID
        · rw [if_neg (by simpa using h2)]
          by_cases h3 : objs.typenum = NPY_OBJECT
          · rw [if_neg (by simpa using h3)]
            by_cases h4 : count objs.dims = count offs.dims
            · exfalso
              rcases hbad with h | h | h | h
              · exact h (by simp [h1])
              · exact h h2
              · exact h h3
              · exact h h4
            · exact ⟨_, if_pos h4⟩
          · exact ⟨_, if_pos h3⟩
        · exact ⟨_, if_pos h2⟩
      · exact ⟨_, if_pos h1⟩
    exact key _ msg hm o ho

example : Call sampleWorld true [some 1, some 1, some 2] (.raised "recarray_to_colmajor must be void type" sampleWorld.bufs) := .raised rfl

/-! ### What is not checked -/

/-- C77, violated: an argument that is no array is used as one. -/
theorem C77_not_array_violated (w : World) (alloc : Bool) (o2 o3 : Option Nat) : Call w alloc [none, o2, o3] .crashed := .crash rfl

/-- C77, violated: a 0-dimensional record array makes the function read through a null pointer. -/
theorem C77_zero_dim_violated (w : World) (alloc : Bool) (a : Nat) (r : Arr) (o2 o3 : Option Nat) (ha : w.arrays[a]? = some r) (h0 : r.strides = []) :
    Call w alloc [some a, o2, o3] .crashed := by
  refine .crash ?_
  unfold prepare World.arr?
  simp [ha, h0]

/-- C77, violated: the result of the workspace allocation is not checked; if it fails the call crashes instead of raising MemoryError. -/
theorem C77_no_memory_violated : Call sampleWorld false [some 0, some 1, some 2] .crashed := .crash rfl

/-- With no output arrays nothing is stored in the workspace and a failed allocation goes unnoticed. -/
example : prepare { sampleWorld with arrays := [⟨20, 3, [2], [3], 0, 0, []⟩, ⟨7, 8, [0], [8], 1, 0, []⟩, ⟨17, 8, [0], [8], 4, 0, []⟩] } false [some 0, some 1, some 2] =
    .convert [97, 98, 99, 65, 66, 67] 3 2 [] := rfl

/-- C77, violated: the lengths of the output arrays are not checked. Whenever one of them has fewer bytes than the records need, every run writes past its end. -/
theorem C77_short_output_violated (w : World) (args : List (Option Nat)) (rec : List Byte) (isz rows : Nat) (cols : List (Col × Nat × Nat)) (i b p : Nat) (col : Col) (buf : List Byte)
    (hprep : prepare w true args = .convert rec isz rows cols) (h0 : 0 < isz) (hrec : rows * isz ≤ rec.length)
    (hv : ∀ c ∈ cols, 0 ≤ c.1.readoffset ∧ c.1.readoffset + c.1.itemsize ≤ isz)
    (hi : cols[i]? = some (col, b, p)) (hb : w.bufs[b]? = some buf) (hp : p ≤ buf.length) (hshort : buf.length < p + rows * col.itemsize) :
    (∀ o, Call w true args o → o = .crashed) ∧ Call w true args .crashed := by
  obtain ⟨chunk, hch⟩ : ∃ chunk, chunkRows isz = some chunk := by unfold chunkRows; rw [if_neg (by omega)]; exact ⟨_, rfl⟩
  have hv' : Valid isz (cols.map Prod.fst) := by
    intro c hc
    obtain ⟨q, hq, rfl⟩ := List.mem_map.1 hc
    exact hv q hq
  have hcoli : (cols.map Prod.fst)[i]? = some col := by rw [List.getElem?_map, hi]; rfl
  have hne : cols.map Prod.fst ≠ [] := by intro hn; rw [hn] at hcoli; simp at hcoli
  have hrun : ∀ calls ws ws', Calls rows calls → AllConv rec isz chunk (cols.map Prod.fst) calls ws → ws'.Perm ws →
      runHeap (cols.map Prod.snd) w.bufs ws' = none := by
    intro calls ws ws' hcalls hall hperm
    obtain ⟨k1, k2⟩ := rec_calls hcalls
    obtain ⟨ws0, g1, gu, g2, g3⟩ := rec_all hrec hv' hne hch calls k1
    obtain rfl := gu ws hall
    -- the byte just past the end
    have hw : 0 < col.itemsize := by
      rcases Nat.eq_zero_or_pos col.itemsize with h | h
      · rw [h] at hshort; omega
      · exact h
    obtain ⟨j, hj⟩ : ∃ j, j = buf.length - p := ⟨_, rfl⟩
    have hjr : j < rows * col.itemsize := by omega
    obtain ⟨c, hcm, hc1, hc2⟩ := k2 (j / col.itemsize) ((Nat.div_lt_iff_lt_mul hw).2 hjr)
    obtain ⟨off, x, hm, hx1, hx2⟩ := g3 c hcm i _ j hcoli ((Nat.le_div_iff_mul_le hw).1 hc1) ((Nat.div_lt_iff_lt_mul hw).1 hc2)
    refine runHeap_out (L := fun k => (w.bufs.getD k []).length) ws' w.bufs ?_ ⟨i, off, x, b, p, hperm.mem_iff.2 hm, by rw [List.getElem?_map, hi]; rfl, ?_⟩
    · intro k bf hk; simp [List.getD_eq_getElem?_getD, hk]
    · simp only [List.getD_eq_getElem?_getD, hb, Option.getD_some]; omega
  refine ⟨?_, ?_⟩
  · intro o ho
    cases ho with
    | raised hp => rw [hprep] at hp; cases hp
    | crash => rfl
    | divide => rfl
    | reads => rfl
    | writes => rfl
    | returned hp hd hcalls hall hperm hr =>
      rw [hprep] at hp; cases hp
      rw [hch] at hd; cases hd
      rw [hrun _ _ _ hcalls hall hperm] at hr; cases hr
  · obtain ⟨calls, hcalls⟩ : ∃ calls, Calls rows calls := by
      by_cases h : 16384 < rows
      · exact ⟨_, .unthreaded h⟩
      · exact ⟨_, .small h⟩
    obtain ⟨ws, g1, _⟩ := rec_all hrec hv' hne hch calls (rec_calls hcalls).1
    exact .writes hprep hch hcalls g1 (List.Perm.refl _) (hrun calls ws ws hcalls g1 (List.Perm.refl _))

/-- Three records of one byte, an output of two bytes. -/
example : Call ⟨[[1, 2, 3], le 8 0, [0, 0], []], [⟨20, 1, [3], [1], 0, 0, []⟩, ⟨7, 8, [1], [8], 1, 0, []⟩, ⟨17, 8, [1], [8], 3, 0, [some 3]⟩, ⟨1, 1, [2], [1], 2, 0, []⟩]⟩ true
    [some 0, some 1, some 2] .crashed := by
  refine (C77_short_output_violated _ _ [1, 2, 3] 1 3 [(⟨0, 1⟩, 2, 0)] 0 2 0 ⟨0, 1⟩ [0, 0] ?_ (by decide) (by decide) (by decide) rfl rfl (by decide) (by decide)).2
  rfl

theorem rowLoop_none {rec : List Byte} {isz : Nat} {c : Col} {e : Nat} {x : Nat} (hx : x < e) (hbad : rd rec (c.readoffset + x * isz) c.itemsize = none) :
    ∀ d s, s + d = x → rowLoop rec isz c e s = none := by
  intro d
  induction d with
  | zero =>
    intro s hs
    obtain rfl : s = x := by omega
    rw [rowLoop, dif_pos hx, hbad]; rfl
  | succ d ih =>
    intro s hs
    rw [rowLoop, dif_pos (by omega)]
    cases rd rec (c.readoffset + s * isz) c.itemsize with
    | none => rfl
    | some y => simp only [ih (s + 1) (by omega)]; rfl

/-- C77, violated: only the first stride is checked. A record array that repeats its rows by a stride of 0 (as np.broadcast_to makes them) in the second
dimension is accepted and read past its end. -/
theorem C77_broadcast_violated (n m : Nat) (recs : List Byte) (hr : recs.length = n) (hn : 0 < n) (hm : 1 < m) (hs : n * m ≤ 16384) (out : List Byte) :
    Call ⟨[recs, le 8 0, out, []], [⟨20, 1, [n, m], [1, 0], 0, 0, []⟩, ⟨7, 8, [1], [8], 1, 0, []⟩, ⟨17, 8, [1], [8], 3, 0, [some 3]⟩, ⟨1, 1, [n * m], [1], 2, 0, []⟩]⟩ true
    [some 0, some 1, some 2] .crashed := by
  have hnm : n < n * m := by
    have := Nat.mul_le_mul_left n (show 2 ≤ m from hm)
    omega
  refine .reads (rec := recs) (isz := 1) (rows := n * m) (chunk := 16384) (cols := [(⟨0, 1⟩, 2, 0)]) (calls := [(0, n * m)]) (c := (0, n * m)) ?_ rfl (.small (by omega)) (by simp) ?_
  · have : Strides.calcArrayLength [n, m] = n * m := by rw [calcArrayLength_count]; simp [count]
    show Prep.convert _ _ _ _ = _
    congr 1
  · refine .fault (by simp only; omega) ?_
    simp only [List.map_cons, List.map_nil, Nat.zero_add]
    rw [columns, column, if_pos (by simp), rowLoop_none (x := n) (by omega) ?_ n 0 (by omega)]
    · rfl
    · unfold rd
      rw [if_neg (by simp only; omega)]

/-- C77, violated: the type of the offsets is not checked. The int32 offsets 0 and 1 are read as one int64 of 2^32, and then past the end of the array. -/
theorem C77_int32_offsets_violated : Call ⟨[[1, 2], le 4 0 ++ le 4 1, [0], [0], []],
    [⟨20, 2, [1], [2], 0, 0, []⟩, ⟨5, 4, [2], [4], 1, 0, []⟩, ⟨17, 8, [2], [8], 4, 0, [some 3, some 4]⟩, ⟨1, 1, [1], [1], 2, 0, []⟩, ⟨1, 1, [1], [1], 3, 0, []⟩]⟩ true
    [some 0, some 1, some 2] .crashed := .crash rfl

/-- C77, violated: a Fortran-ordered record array (first stride equal to the item size) is accepted and its fields come out in memory order: here the element
at position 1 of the output is record (1, 0) instead of record (0, 1). -/
theorem C77_fortran_violated : ∃ bufs', Call ⟨[[1, 2, 3, 4], le 8 0, [0, 0, 0, 0], []],
    [⟨20, 1, [2, 2], [1, 2], 0, 0, []⟩, ⟨7, 8, [1], [8], 1, 0, []⟩, ⟨17, 8, [1], [8], 3, 0, [some 3]⟩, ⟨1, 1, [4], [1], 2, 0, []⟩]⟩ true
    [some 0, some 1, some 2] (.returned bufs') ∧ elemBytes bufs' ⟨1, 1, [4], [1], 2, 0, []⟩ [1] ≠ elemBytes [[1, 2, 3, 4]] ⟨20, 1, [2, 2], [1, 2], 0, 0, []⟩ [0, 1] := by
  have hc : Conv [1, 2, 3, 4] 1 16384 [⟨0, 1⟩] 4 0 (some [(0, 0, [(1 : Byte)]), (0, 1, [2]), (0, 2, [3]), (0, 3, [4])]) := by
    have : columns [(1 : Byte), 2, 3, 4] 1 0 (min (0 + 16384) 4) 0 [⟨0, 1⟩] 0 = some ([(0, 0, [1]), (0, 1, [2]), (0, 2, [3]), (0, 3, [4])], 4) := by
      rw [columns, column, if_pos (by simp)]
      simp [rowLoop, rd, columns]
    exact Conv.step (r := some []) (by decide) this (.done (by decide))
  refine ⟨[[1, 2, 3, 4], le 8 0, [1, 2, 3, 4], []], .returned (rec := [1, 2, 3, 4]) (isz := 1) (rows := 4) (chunk := 16384) (cols := [(⟨0, 1⟩, 2, 0)]) (calls := [(0, 4)])
    rfl rfl (.small (by decide)) (.cons hc .nil) (List.Perm.refl _) ?_, by decide⟩
  rfl

end Pnumpy.Props
