import Verif.Model.OutOfMemory
import Verif.Props.ParSort
import Verif.Proofs.LexPerm
/-
What the sorts do when memory runs out.
-/
namespace Pnumpy.OutOfMemory
open Pnumpy.Sort Pnumpy.ParSort Pnumpy.Lex Pnumpy.SortApi Pnumpy.Props Spec

variable {α : Type}

/-! ### Allocation -/

theorem wsAlloc_cases (ok : Nat → Bool) (h : Heap) :
    (ok h.asked = true ∧ wsAlloc ok h = some (.block h.asked, ⟨h.asked :: h.live, h.asked + 1⟩)) ∨
    (ok h.asked = false ∧ wsAlloc ok h = some (.null, ⟨h.live, h.asked + 1⟩)) := by
  unfold wsAlloc
  cases e : ok h.asked
  · right; simp
  · left; simp

theorem wsFree_block (id m : Nat) (l : List Nat) : wsFree (.block id) ⟨id :: l, m⟩ = some ((), ⟨l, m⟩) := by
  unfold wsFree; simp

/-- A block that was allocated and is freed leaves the heap as it was. -/
theorem alloc_free {ok : Nat → Bool} {h h1 h2 : Heap} {p : Ptr} (hp : wsAlloc ok h = some (p, h1)) (hn : p ≠ .null) (m : Nat)
    (hf : wsFree p ⟨h1.live, m⟩ = some ((), h2)) : h2.live = h.live := by
  rcases wsAlloc_cases ok h with ⟨_, e⟩ | ⟨_, e⟩ <;> rw [e] at hp
  · obtain ⟨rfl, rfl⟩ := Prod.mk.inj (Option.some.inj hp)
    rw [wsFree_block] at hf
    obtain ⟨_, rfl⟩ := Prod.mk.inj (Option.some.inj hf)
    rfl
  · exact absurd (Prod.mk.inj (Option.some.inj hp)).1.symm hn

/-- Code that allocates, uses and frees a workspace. -/
theorem withWs {β : Type} (ok : Nat → Bool) (x : Option β) (h : Heap) (bad : β) :
    andThen (wsAlloc ok) (fun pw => if pw = .null then ret ((-1 : Int), bad)
          else andThen (lift x) fun a => andThen (wsFree pw) fun _ => ret (0, a)) h =
    if ok h.asked then x.map fun a => ((0, a), ⟨h.live, h.asked + 1⟩) else some ((-1, bad), ⟨h.live, h.asked + 1⟩) := by
  rcases wsAlloc_cases ok h with ⟨e, e'⟩ | ⟨e, e'⟩
  · simp only [andThen, e', Option.bind_some, e, if_true, reduceCtorEq, if_false, lift]
    cases x with
    | none => rfl
    | some a => simp [wsFree_block, ret]
  · simp [andThen, e', e, ret]

/-- ... a workspace that may be on the stack. -/
theorem withMaybe {β : Type} (ok : Nat → Bool) (x : Option β) (h : Heap) (bad : β) (b : Nat) :
    andThen (maybeAlloc ok b) (fun pw => if pw = .null then ret ((-1 : Int), bad)
          else andThen (lift x) fun a => andThen (maybeFree b pw) fun _ => ret (0, a)) h =
    if MAX_STACK < b then
      (if ok h.asked then x.map fun a => ((0, a), ⟨h.live, h.asked + 1⟩) else some ((-1, bad), ⟨h.live, h.asked + 1⟩))
    else x.map fun a => ((0, a), h) := by
  by_cases hb : MAX_STACK < b
  · simp only [maybeAlloc, maybeFree, gt_iff_lt, hb, if_true]
    exact withWs ok x h bad
  · simp only [maybeAlloc, maybeFree, gt_iff_lt, hb, if_false]
    simp only [andThen, ret, Option.bind_some, reduceCtorEq, if_false, lift]
    cases x <;> rfl

/-- Whether the sort function of kind `k` asks for memory for `len` elements. -/
def asks (k : Kind) (size len : Nat) : Prop := k = .merge ∧ MAX_STACK < len / 2 * size

/-- The sort function of a leaf: it asks at most once, gives back what it got, fails without a change if it gets nothing, and
else sorts; the blocks others hold play no part. -/
theorem sortM_heap (ok : Nat → Bool) (o : Ops α) (k : Kind) (size : Nat) (junk : Nat → List α) (a : List α) (start len : Nat) (h : Heap) :
    (asks k size len → ok h.asked = false → sortM ok o k size junk a start len h = some ((-1, a), ⟨h.live, h.asked + 1⟩)) ∧
    (asks k size len → ok h.asked = true →
      sortM ok o k size junk a start len h = (sortFn o k a start len (junk (len / 2))).map fun a => ((0, a), ⟨h.live, h.asked + 1⟩)) ∧
    (¬ asks k size len → sortM ok o k size junk a start len h = (sortFn o k a start len (junk (len / 2))).map fun a => ((0, a), h)) := by
  unfold asks
  cases k with
  | merge =>
    have e := withMaybe ok (sortFn o .merge a start len (junk (len / 2))) h a (len / 2 * size)
    refine ⟨fun hb hk => ?_, fun hb hk => ?_, fun hb => ?_⟩
    · show mergesortM _ _ _ _ _ _ _ _ = _
      unfold mergesortM; rw [e, if_pos hb.2, hk]; rfl
    · show mergesortM _ _ _ _ _ _ _ _ = _
      unfold mergesortM; rw [e, if_pos hb.2, hk]; rfl
    · show mergesortM _ _ _ _ _ _ _ _ = _
      unfold mergesortM; rw [e, if_neg (fun hx => hb ⟨rfl, hx⟩)]
  | quick =>
    refine ⟨fun hb => absurd hb.1 (by decide), fun hb => absurd hb.1 (by decide), fun _ => ?_⟩
    simp only [sortM, andThen, lift]
    cases sortFn o .quick a start len (junk (len / 2)) <;> rfl
  | heap =>
    refine ⟨fun hb => absurd hb.1 (by decide), fun hb => absurd hb.1 (by decide), fun _ => ?_⟩
    simp only [sortM, andThen, lift]
    cases sortFn o .heap a start len (junk (len / 2)) <;> rfl

theorem sortM_live {ok : Nat → Bool} {o : Ops α} {k : Kind} {size : Nat} {junk : Nat → List α} {a r : List α} {start len : Nat} {h h' : Heap}
    {rc : Int} (hr : sortM ok o k size junk a start len h = some ((rc, r), h')) :
    h'.live = h.live ∧ (rc = 0 ∨ rc = -1) ∧ (rc = 0 → sortFn o k a start len (junk (len / 2)) = some r) ∧ (rc = -1 → r = a) := by
  obtain ⟨h1, h2, h3⟩ := sortM_heap ok o k size junk a start len h
  by_cases hb : asks k size len
  · cases hk : ok h.asked
    · rw [h1 hb hk] at hr
      obtain ⟨e, rfl⟩ := Prod.mk.inj (Option.some.inj hr)
      obtain ⟨rfl, rfl⟩ := Prod.mk.inj e
      exact ⟨rfl, Or.inr rfl, fun h => absurd h (by decide), fun _ => rfl⟩
    · rw [h2 hb hk] at hr
      obtain ⟨b, e1, e2⟩ := Option.map_eq_some_iff.1 hr
      obtain ⟨e, rfl⟩ := Prod.mk.inj e2
      obtain ⟨rfl, rfl⟩ := Prod.mk.inj e
      exact ⟨rfl, Or.inl rfl, fun _ => e1, fun h => absurd h (by decide)⟩
  · rw [h3 hb] at hr
    obtain ⟨b, e1, e2⟩ := Option.map_eq_some_iff.1 hr
    obtain ⟨e, rfl⟩ := Prod.mk.inj e2
    obtain ⟨rfl, rfl⟩ := Prod.mk.inj e
    exact ⟨rfl, Or.inl rfl, fun _ => e1, fun h => absurd h (by decide)⟩

/-! ### The merge of two lists of any kind -/

theorem mergeL_sub_left (tr : α → α → Bool) (L R : List α) : L.Sublist (mergeL tr L R) := by
  induction L, R using mergeL.induct tr with
  | case1 R => exact List.nil_sublist _
  | case2 l L => simp [mergeL]
  | case3 l L r R h ih => rw [mergeL, if_pos h]; exact ih.cons r
  | case4 l L r R h ih => rw [mergeL, if_neg h]; exact ih.cons_cons l

theorem mergeL_sub_right (tr : α → α → Bool) (L R : List α) : R.Sublist (mergeL tr L R) := by
  induction L, R using mergeL.induct tr with
  | case1 R => simp [mergeL]
  | case2 l L => exact List.nil_sublist _
  | case3 l L r R h ih => rw [mergeL, if_pos h]; exact ih.cons_cons r
  | case4 l L r R h ih => rw [mergeL, if_neg h]; exact ih.cons l

/-- parMerge of two halves of any content: both halves keep their order. -/
theorem parMerge_any {cmp : α → α → Option Bool} {lt : α → α → Bool} (hc : ∀ x y, cmp x y = some (lt x y))
    (A L R B W1 W W2 : List α) {pl len pw : Nat} (h1 : pl = A.length) (h2 : len = L.length + R.length) (h3 : pw = W1.length)
    (hhalf : L.length = len / 2) (hpos : 2 ≤ len) (hW : L.length ≤ W.length) :
    ∃ S' W', (S' = L ++ R ∨ S' = mergeL lt L R) ∧ W'.length = W.length ∧
      parMerge cmp (A ++ L ++ R ++ B) (W1 ++ W ++ W2) pl len pw = some (A ++ S' ++ B, W1 ++ W' ++ W2) := by
  subst h1 h3
  obtain ⟨L0, y, hLy⟩ := exists_last L (by omega)
  obtain ⟨x, R0, hRx⟩ := exists_head R (by omega)
  have hcmp := hc x y
  have hgx : (A ++ L ++ R ++ B)[A.length + len / 2]? = some x := by
    rw [hRx]
    have e : A ++ L ++ x :: R0 ++ B = (A ++ L) ++ x :: (R0 ++ B) := by simp
    rw [e]; exact get_mid (by simp; omega)
  have hgy : (A ++ L ++ R ++ B)[A.length + len / 2 - 1]? = some y := by
    rw [hLy]
    have e : A ++ (L0 ++ [y]) ++ R ++ B = (A ++ L0) ++ y :: (R ++ B) := by simp
    rw [hLy] at hhalf; simp at hhalf
    rw [e]; exact get_mid (by simp; omega)
  cases hb : lt x y
  · refine ⟨L ++ R, W, Or.inl rfl, rfl, ?_⟩
    unfold parMerge
    rw [if_neg (by omega)]
    simp only [Option.bind_eq_bind, Option.bind_some, hgx, hgy, hcmp, hb, Bool.false_eq_true, if_false]
    simp
  · obtain ⟨G, W', rfl, hG, hW'⟩ := split_at W (len / 2) (by omega)
    have hrun := mergeBack_ok (tr := cmp) (t := lt) W1 L (W' ++ W2) A L R B rfl (fun r _ l _ => hc r l)
      (pw := W1.length) (pwEnd := W1.length + (A.length + len / 2 - A.length)) (pm := A.length + len / 2) (pr := A.length + len)
      (pl := A.length) rfl (by omega) rfl (by omega) (by omega)
    refine ⟨mergeL lt L R, L ++ W', Or.inr rfl, by simp; omega, ?_⟩
    have hblit : blit (A ++ L ++ R ++ B) A.length (W1 ++ (G ++ W') ++ W2) W1.length
        (A.length + len / 2 - A.length) = some (W1 ++ L ++ (W' ++ W2)) := by
      have := blit_eq (A1 := A) (S := L) (A2 := R ++ B) (B1 := W1) (G := G) (B2 := W' ++ W2) (s := A.length)
        (d := W1.length) (n := A.length + len / 2 - A.length) rfl rfl (by omega) (by omega)
      rw [← this]; congr 1 <;> simp
    unfold parMerge
    rw [if_neg (by omega)]
    simp only [Option.bind_eq_bind, Option.bind_some, hgx, hgy, hcmp, hb, if_true, hblit]
    simp only [Option.bind_eq_bind] at hrun
    obtain ⟨m, hm1, hm2⟩ := Option.bind_eq_some_iff.1 hrun
    rw [hm1, Option.bind_some, hm2, Option.bind_some]
    simp

/-! ### The parallel sort with failing leaves -/

/-- Leaf `j` of a sort of `n` elements gets no workspace although it needs one. -/
def Failing (fails : Nat → Bool) (k : Kind) (size n j : Nat) : Prop :=
  asks k size (nodeHi n 0 j - nodeLo n 0 j) ∧ fails (nodeLo n 0 j) = true

/-- What a node holds: a permutation in which the elements of every failed leaf below keep their order; ascending if no leaf
below failed. -/
def NodeQ (t : DT) (fails : Nat → Bool) (k : Kind) (size n : Nat) (a0 : List (BitVec t.bits)) (l j : Nat) (S : List (BitVec t.bits)) : Prop :=
  S.Perm (part n a0 l j) ∧
  (∀ i, i / 2 ^ l = j → Failing fails k size n i → (part n a0 0 i).Sublist S) ∧
  ((∀ i, i / 2 ^ l = j → ¬ Failing fails k size n i) → Asc (ops t).lt S)

theorem node_contract (t : DT) (fails : Nat → Bool) (k : Kind) (size n : Nat) (junk : Nat → List (BitVec t.bits))
    (hj : ∀ m, (junk m).length = m) (a0 : List (BitVec t.bits)) (h0 : a0.length = n) (hn : n < 2 ^ 63) :
    NContract (leafM fails (ops t) k size junk) (parMerge (direct (ops t).lt)) n a0 (NodeQ t fails k size n a0) where
  len {l j S} hv h := by rw [h.1.length_eq]; exact seg_length (by rw [h0]; exact nodeHi_le hv)
  leaf_ok {j} A B w hj8 hA hw := by
    have hv : Valid 0 j := ⟨by omega, by simpa using hj8⟩
    have hhi := nodeHi_le (n := n) hv
    have hS : (part n a0 0 j).length = nodeHi n 0 j - nodeLo n 0 j := seg_length (by rw [h0]; exact hhi)
    obtain ⟨f1, f2, f3⟩ := sortM_heap (fun _ => !fails (nodeLo n 0 j)) (ops t) k size junk (A ++ part n a0 0 j ++ B) (nodeLo n 0 j)
      (nodeHi n 0 j - nodeLo n 0 j) ⟨[], 0⟩
    have hone : ∀ i, i / 2 ^ 0 = j → i = j := fun i h => by simpa using h
    by_cases hF : Failing fails k size n j
    · refine ⟨part n a0 0 j, w, ?_, ⟨List.Perm.refl _, fun i hi _ => by rw [hone i hi], fun h => absurd hF (h j (by simp))⟩, Within.refl _ _ _⟩
      unfold leafM
      rw [f1 hF.1 (by simp [hF.2])]; rfl
    · obtain ⟨S', h1, h2, h3, h4⟩ := sortFn_correct (opsOk t) k A (part n a0 0 j) B (junk ((part n a0 0 j).length / 2)) (hj _) (by omega)
      refine ⟨S', w, ?_, ⟨h2, fun i hi h => absurd (hone i hi ▸ h) hF, fun _ => h3⟩, Within.refl _ _ _⟩
      unfold leafM
      rw [hS, hA] at h1
      by_cases hb : asks k size (nodeHi n 0 j - nodeLo n 0 j)
      · have hf : fails (nodeLo n 0 j) = false := by
          cases e : fails (nodeLo n 0 j)
          · rfl
          · exact absurd ⟨hb, e⟩ hF
        rw [f2 hb (by simp [hf]), h1]; rfl
      · rw [f3 hb, h1]; rfl
  merge_ok {l j} A L R B W1 W W2 pl len pw hv hL hR hA h1 h2 h3 h4 h5 h6 := by
    obtain ⟨m1, m2, m3, m4⟩ := node_mid (n := n) hv
    have hle := nodeLo_le (n := n) hv
    have hpart : part n a0 (l + 1) j = part n a0 l (2 * j) ++ part n a0 l (2 * j + 1) := by
      unfold part
      rw [← m1, ← m2, ← m3]
      exact seg_split (by omega) (by omega)
    have hdiv : ∀ i, i / 2 ^ (l + 1) = i / 2 ^ l / 2 := fun i => by rw [Nat.pow_succ, Nat.div_div_eq_div_mul]
    have hperm : (L ++ R).Perm (part n a0 (l + 1) j) := by rw [hpart]; exact hL.1.append hR.1
    by_cases hF : ∃ i, i / 2 ^ (l + 1) = j ∧ Failing fails k size n i
    · obtain ⟨S', W', e1, e2, e3⟩ := parMerge_any (cmp := direct (ops t).lt) (lt := (ops t).lt) (fun x y => rfl) A L R B W1 W W2 h1 h2 h3 h4 h5 h6
      refine ⟨S', W', ⟨?_, fun i hi hf => ?_, fun h => ?_⟩, e2, e3⟩
      · rcases e1 with rfl | rfl
        · exact hperm
        · exact (mergeL_perm _ L R).trans hperm
      · rw [hdiv] at hi
        have hS : L.Sublist S' ∧ R.Sublist S' := by
          rcases e1 with rfl | rfl
          · exact ⟨List.sublist_append_left _ _, List.sublist_append_right _ _⟩
          · exact ⟨mergeL_sub_left _ _ _, mergeL_sub_right _ _ _⟩
        rcases Nat.mod_two_eq_zero_or_one (i / 2 ^ l) with e | e
        · exact (hL.2.1 i (by omega) hf).trans hS.1
        · exact (hR.2.1 i (by omega) hf).trans hS.2
      · obtain ⟨i, h7, h8⟩ := hF
        exact absurd h8 (h i h7)
    · have hno : ∀ i, i / 2 ^ (l + 1) = j → ¬ Failing fails k size n i := fun i hi hf => hF ⟨i, hi, hf⟩
      have hLa := hL.2.2 fun i hi => hno i (by rw [hdiv, hi]; omega)
      have hRa := hR.2.2 fun i hi => hno i (by rw [hdiv, hi]; omega)
      obtain ⟨S', W', e1, e2, e3⟩ := parMerge_ok (computes_direct _) (opsOk t).swo A L R B W1 W W2 L R (SS.refl hLa) (SS.refl hRa)
        (fun _ _ => trivial) (fun _ _ => trivial) h1 h2 h3 h4 h5 h6
      exact ⟨S', W', ⟨e1.perm.trans hperm, fun i hi hf => absurd hf (hno i hi), fun _ => e1.asc⟩, e2, e3⟩

theorem parallel_inv (t : DT) (fails : Nat → Bool) (k : Kind) (size : Nat) (junk : Nat → List (BitVec t.bits))
    (hj : ∀ m, (junk m).length = m) (a : List (BitVec t.bits)) (inPlace : Bool) (out : List (BitVec t.bits)) (hout : out.length = a.length)
    (w : List (BitVec t.bits)) (hw : w.length = 8 * (a.length / 16 + 1)) (hn : 65536 ≤ a.length) (hn' : a.length < 2 ^ 63)
    (s : PS (BitVec t.bits))
    (hr : Reach (leafM fails (ops t) k size junk) (parMerge (direct (ops t).lt)) a.length (if inPlace then none else some a)
      (init (if inPlace then a else out) w) s) :
    Inv a.length (NodeQ t fails k size a.length a) (if inPlace then none else some a) a s := by
  refine reach_inv (node_contract t fails k size a.length junk hj a rfl hn') (by omega) rfl ?_ ?_ hr
  · intro v hv
    cases inPlace <;> simp at hv
    exact hv.symm
  · refine inv_init w _ ?_ hw ?_
    · cases inPlace
      · exact hout
      · rfl
    · intro h
      cases inPlace
      · simp at h
      · rfl

/-- The array when a parallel sort is complete. -/
theorem parallel_result (t : DT) (fails : Nat → Bool) (k : Kind) (size : Nat) (junk : Nat → List (BitVec t.bits))
    (hj : ∀ m, (junk m).length = m) (a : List (BitVec t.bits)) (inPlace : Bool) (out : List (BitVec t.bits)) (hout : out.length = a.length)
    (w : List (BitVec t.bits)) (hw : w.length = 8 * (a.length / 16 + 1)) (hn : 65536 ≤ a.length) (hn' : a.length < 2 ^ 63)
    (s : PS (BitVec t.bits))
    (hr : Reach (leafM fails (ops t) k size junk) (parMerge (direct (ops t).lt)) a.length (if inPlace then none else some a)
      (init (if inPlace then a else out) w) s) (h8 : s.completed = 8) :
    s.a.Perm a ∧ (∀ j, j < 8 → Failing fails k size a.length j → (part a.length a 0 j).Sublist s.a) ∧
      ((∀ j, j < 8 → ¬ Failing fails k size a.length j) → Asc (ops t).lt s.a) := by
  have h := (parallel_inv t fails k size junk hj a inPlace out hout w hw hn hn' s hr).root h8
  have e1 : part a.length a 3 0 = a := by
    show seg a (nodeLo a.length 3 0) (nodeHi a.length 3 0) = a
    exact seg_all a
  refine ⟨?_, fun j hj hf => h.2.1 j (by simp; omega) hf, fun hx => h.2.2 fun i hi => hx i ?_⟩
  · have := h.1; rwa [e1] at this
  · simp at hi; omega

theorem parallel_exists (t : DT) (fails : Nat → Bool) (k : Kind) (size : Nat) (junk : Nat → List (BitVec t.bits))
    (hj : ∀ m, (junk m).length = m) (a : List (BitVec t.bits)) (inPlace : Bool) (out : List (BitVec t.bits)) (hout : out.length = a.length)
    (w : List (BitVec t.bits)) (hw : w.length = 8 * (a.length / 16 + 1)) (hn : 65536 ≤ a.length) (hn' : a.length < 2 ^ 63) :
    ∃ s, Reach (leafM fails (ops t) k size junk) (parMerge (direct (ops t).lt)) a.length (if inPlace then none else some a)
      (init (if inPlace then a else out) w) s ∧ s.completed = 8 := by
  obtain ⟨s, h1, h2⟩ := exists_complete (node_contract t fails k size a.length junk hj a rfl hn') (by omega) rfl
    (fun v hv => by cases inPlace <;> simp at hv; exact hv.symm)
    (parallel_inv t fails k size junk hj a inPlace out hout w hw hn hn' _ .start) .start
  exact ⟨s, h1, h2.2⟩

/-! ### lexsort -/

/-- One key of lexsort without threads. -/
theorem passM_cases (ok : Nat → Bool) (k : Kind) (junk : Nat → List Nat) (c : Col) (ix : List Nat) (h : Heap) :
    (∃ m, passM ok k junk c ix h = some ((-1, ix), ⟨h.live, m⟩)) ∨
    (∃ m, passM ok k junk c ix h = (passSerial k c ix (junk (ix.length / 2))).map fun ix => ((0, ix), ⟨h.live, m⟩)) := by
  have ws : ∀ x : Option (List Nat), (∃ m, andThen (wsAlloc ok) (fun pw => if pw = .null then ret ((-1 : Int), ix)
          else andThen (lift x) fun a => andThen (wsFree pw) fun _ => ret (0, a)) h = some ((-1, ix), ⟨h.live, m⟩)) ∨
      (∃ m, andThen (wsAlloc ok) (fun pw => if pw = .null then ret ((-1 : Int), ix)
          else andThen (lift x) fun a => andThen (wsFree pw) fun _ => ret (0, a)) h = x.map fun a => ((0, a), ⟨h.live, m⟩)) := by
    intro x
    rw [withWs]
    cases ok h.asked
    · exact Or.inl ⟨h.asked + 1, rfl⟩
    · exact Or.inr ⟨h.asked + 1, rfl⟩
  have pl : ∀ x : Option (List Nat), (andThen (lift x) fun ix => ret ((0 : Int), ix)) h = x.map fun a => ((0, a), ⟨h.live, h.asked⟩) := by
    intro x; cases x <;> rfl
  cases c with
  | half v => exact Or.inl ⟨h.asked, rfl⟩
  | str u len v => exact ws _
  | num t v =>
    cases k with
    | merge => exact ws _
    | quick => exact Or.inr ⟨h.asked, pl _⟩
    | heap => exact Or.inr ⟨h.asked, pl _⟩

theorem passM_sound {ok : Nat → Bool} {k : Kind} {threads : Bool} {c : Col} {ix ix' : List Nat} {h h' : Heap} {rc : Int}
    (hp : PassM ok k threads c ix h rc ix' h') :
    h'.live = h.live ∧ (rc = 0 ∧ Pass k c ix ix' ∨ rc = -1 ∧ ix' = ix) := by
  cases hp with
  | noWorkspace ht hn hp =>
    refine ⟨?_, Or.inr ⟨rfl, rfl⟩⟩
    rcases wsAlloc_cases ok h with ⟨_, e⟩ | ⟨_, e⟩ <;> rw [e] at hp
    · exact absurd (Prod.mk.inj (Option.some.inj hp)).1 (by simp)
    · rw [← (Prod.mk.inj (Option.some.inj hp)).2]
  | @parallel p _ h1 _ ht hn hp hnn hr hf => exact ⟨alloc_free (m := h1.asked) hp hnn hf, Or.inl ⟨rfl, hr⟩⟩
  | serial junk hj ht hr =>
    rcases passM_cases ok k junk c ix h with ⟨m, e⟩ | ⟨m, e⟩ <;> rw [e] at hr
    · obtain ⟨e, rfl⟩ := Prod.mk.inj (Option.some.inj hr)
      obtain ⟨rfl, rfl⟩ := Prod.mk.inj e
      exact ⟨rfl, Or.inr ⟨rfl, rfl⟩⟩
    · obtain ⟨b, e1, e2⟩ := Option.map_eq_some_iff.1 hr
      obtain ⟨e, rfl⟩ := Prod.mk.inj e2
      obtain ⟨rfl, rfl⟩ := Prod.mk.inj e
      exact ⟨rfl, Or.inl ⟨rfl, .serial c ix b _ (hj _) e1⟩⟩

/-- Passes of which some failed. -/
inductive SomePasses (k : Kind) : List Col → List Int → List Nat → List Nat → Prop where
  | nil (ix : List Nat) : SomePasses k [] [] ix ix
  | good {c : Col} {cs : List Col} {rcs : List Int} {ix ix1 ix2 : List Nat} (h : Pass k c ix ix1) (hs : SomePasses k cs rcs ix1 ix2) :
      SomePasses k (c :: cs) (0 :: rcs) ix ix2
  | bad {c : Col} {cs : List Col} {rcs : List Int} {ix ix2 : List Nat} (hs : SomePasses k cs rcs ix ix2) :
      SomePasses k (c :: cs) (-1 :: rcs) ix ix2

theorem passesM_sound {ok : Nat → Bool} {k : Kind} {threads : Bool} {cs : List Col} {ix ix' : List Nat} {h h' : Heap} {rcs : List Int}
    (hp : PassesM ok k threads cs ix h rcs ix' h') :
    h'.live = h.live ∧ rcs.length = cs.length ∧ (∀ rc ∈ rcs, rc = 0 ∨ rc = -1) ∧ SomePasses k cs rcs ix ix' := by
  induction hp with
  | nil ix h => exact ⟨rfl, rfl, (fun _ h => nomatch h), .nil ix⟩
  | @cons c cs ix ix1 ix2 h h1 h2 rc rcs hp _ ih =>
    obtain ⟨i1, i2, i3, i4⟩ := ih
    obtain ⟨p1, p2⟩ := passM_sound hp
    rcases p2 with ⟨rfl, p2⟩ | ⟨rfl, rfl⟩
    · exact ⟨i1.trans p1, by simp [i2], by simpa using i3, .good p2 i4⟩
    · exact ⟨i1.trans p1, by simp [i2], by simpa using i3, .bad i4⟩

theorem passesM_exist {ok : Nat → Bool} {k : Kind} {threads : Bool} {cs : List Col} :
    ∀ {ix : List Nat} {n : Nat}, (∀ c ∈ cs, c.Sized ∧ c.rows = n) → (∀ i ∈ ix, i < n) → ix.length < 2 ^ 63 →
    (threads = false ∨ ix.length < 65536) → ∀ h : Heap,
    ∃ rcs ix' h', PassesM ok k threads cs ix h rcs ix' h' := by
  induction cs with
  | nil => intro ix n _ _ _ _ h; exact ⟨[], ix, h, .nil ix h⟩
  | cons c cs ih =>
    intro ix n hc hix hn ht h
    obtain ⟨hg, hrows⟩ := hc c (by simp)
    obtain ⟨b, h1, h2⟩ := passSerial_perm hg k ix (List.replicate (ix.length / 2) 0) (by rw [hrows]; exact hix) hn (by simp)
    have hx : ∃ rc ix1 h1, PassM ok k threads c ix h rc ix1 h1 ∧ ix1.Perm ix := by
      rcases passM_cases ok k (fun m => List.replicate m 0) c ix h with ⟨m, e⟩ | ⟨m, e⟩
      · exact ⟨_, _, _, .serial _ (fun _ => List.length_replicate) ht e, List.Perm.refl _⟩
      · rw [h1] at e
        exact ⟨_, _, _, .serial _ (fun _ => List.length_replicate) ht e, h2⟩
    obtain ⟨rc, ix1, h1, hp, hperm⟩ := hx
    obtain ⟨rcs, ix2, h2, hps⟩ := ih (ix := ix1) (n := n) (fun c' hc' => hc c' (by simp [hc'])) (fun i hi => hix i (hperm.mem_iff.1 hi))
      (by rw [hperm.length_eq]; exact hn) (by rw [hperm.length_eq]; exact ht) h1
    exact ⟨rc :: rcs, ix2, h2, .cons hp hps⟩

/-- With all requests granted no key fails. -/
theorem passesM_granted {k : Kind} {threads : Bool} {cs : List Col} {ix ix' : List Nat} {h h' : Heap} {rcs : List Int}
    (hc : ∀ c ∈ cs, c.Good) (hp : PassesM (fun _ => true) k threads cs ix h rcs ix' h') : ∀ rc ∈ rcs, rc = 0 := by
  induction hp with
  | nil => intro rc h; cases h
  | @cons c cs ix ix1 ix2 h h1 h2 rc rcs hp _ ih =>
    have : rc = 0 := by
      cases hp with
      | noWorkspace ht hn hp => simp [wsAlloc] at hp
      | parallel => rfl
      | serial junk hj ht hr =>
        have ws : ∀ x : Option (List Nat), andThen (wsAlloc (fun _ => true)) (fun pw => if pw = .null then ret ((-1 : Int), ix)
            else andThen (lift x) fun a => andThen (wsFree pw) fun _ => ret (0, a)) h = some ((rc, ix1), h1) → rc = 0 := by
          intro x hx
          rw [withWs] at hx
          cases x with
          | none => cases hx
          | some b => exact (Prod.mk.inj (Prod.mk.inj (Option.some.inj hx)).1).1.symm
        have pl : ∀ x : Option (List Nat), (andThen (lift x) fun ix => ret ((0 : Int), ix)) h = some ((rc, ix1), h1) → rc = 0 := by
          intro x hx
          cases x with
          | none => cases hx
          | some b => exact (Prod.mk.inj (Prod.mk.inj (Option.some.inj hx)).1).1.symm
        cases c with
        | half v => exact absurd (hc (.half v) (by simp)) id
        | str u len v => exact ws _ hr
        | num t v =>
          cases k with
          | merge => exact ws _ hr
          | quick => exact pl _ hr
          | heap => exact pl _ hr
    intro r hr
    rcases List.mem_cons.1 hr with e | e
    · rw [e, this]
    · exact ih (fun c hcc => hc c (by simp [hcc])) r e

/-- With all requests refused a merge sort by a key changes nothing. -/
theorem refused_keeps {threads : Bool} {c : Col} {ix ix' : List Nat} {h h' : Heap} {rc : Int}
    (hp : PassM (fun _ => false) .merge threads c ix h rc ix' h') : ix' = ix := by
  cases hp with
  | noWorkspace => rfl
  | parallel ht hn hp hnn => simp only [wsAlloc, Bool.false_eq_true, if_false] at hp; exact absurd (Prod.mk.inj (Option.some.inj hp)).1.symm hnn
  | serial junk hj ht hr =>
    have ws : ∀ x : Option (List Nat), andThen (wsAlloc (fun _ => false)) (fun pw => if pw = .null then ret ((-1 : Int), ix)
        else andThen (lift x) fun a => andThen (wsFree pw) fun _ => ret (0, a)) h = some ((rc, ix'), h') → ix' = ix := by
      intro x hx
      rw [withWs] at hx
      exact (Prod.mk.inj (Prod.mk.inj (Option.some.inj hx)).1).2.symm
    cases c with
    | half v => exact (Prod.mk.inj (Prod.mk.inj (Option.some.inj hr)).1).2.symm
    | str u len v => exact ws _ hr
    | num t v => exact ws _ hr

/-! ### Cutoffs -/

section
variable {cut : List Nat} {n : Nat} {fails : Nat → Bool}

/-- What a partition task does. -/
def RunM (fails : Nat → Bool) (c : Col) (cut : List Nat) (t : Nat) (snap S' : List Nat) : Prop :=
  ∃ (junk : Nat → List Nat) (rc : Int) (h' : Heap), (∀ m, (junk m).length = m) ∧
    partM (fun _ => !fails t) junk (c.slice (partLo cut t) (partHi cut t)) snap ⟨[], 0⟩ = some ((rc, S'), h')

/-- ... a refused one changes nothing, the others sort. -/
def PartD (fails : Nat → Bool) (c : Col) (cut : List Nat) (t : Nat) (S' S : List Nat) : Prop :=
  (fails t = true → S' = S) ∧ (fails t = false → SS (colLt (c.slice (partLo cut t) (partHi cut t))) S' S)

theorem partM_eq (ok : Nat → Bool) (junk : Nat → List Nat) {c : Col} (hg : c.Good) (ix : List Nat) (h : Heap) :
    partM ok junk c ix h = if ok h.asked then (passSerial .merge c ix (junk (ix.length / 2))).map fun a => ((0, a), ⟨h.live, h.asked + 1⟩)
      else some ((-1, ix), ⟨h.live, h.asked + 1⟩) := by
  cases c with
  | half v => exact hg.elim
  | num t v => exact withWs ok _ h ix
  | str u len v => exact withWs ok _ h ix

theorem effectM {c : Col} (hg : c.Good) (hrows : c.rows = n) (hn : n < 2 ^ 63) (hcut : ValidCut cut n) :
    EffectG (RunM fails c cut) cut (PartD fails c cut) := by
  rintro t snap S' ht hrel hsl ⟨junk, rc, h', hj, hrun⟩
  have hhi := hcut.hi_le ht
  rw [partM_eq _ _ (slice_good hg _ _)] at hrun
  cases hf : fails t
  · rw [hf] at hrun
    simp only [Bool.not_false, if_true] at hrun
    obtain ⟨b, h1, h2⟩ := passSerial_ok (slice_good hg (partLo cut t) (partHi cut t)) snap (junk (snap.length / 2))
      (by rw [slice_rows c (by omega)]; exact hrel) (by omega) (hj _)
    rw [h1] at hrun
    obtain rfl := (Prod.mk.inj (Prod.mk.inj (Option.some.inj hrun)).1).2
    exact ⟨⟨(fun h => by rw [hf] at h; cases h), fun _ => h2⟩, h2.perm.length_eq⟩
  · rw [hf] at hrun
    simp only [Bool.not_true, Bool.false_eq_true, if_false] at hrun
    obtain rfl := (Prod.mk.inj (Prod.mk.inj (Option.some.inj hrun)).1).2
    exact ⟨⟨fun _ => rfl, (fun h => by rw [hf] at h; cases h)⟩, rfl⟩

theorem reachM_inv {c : Col} (hg : c.Good) (hrows : c.rows = n) (hn : n < 2 ^ 63) (hcut : ValidCut cut n) {a0 : List Nat}
    (h0 : a0.length = n) (hrel : Rel cut a0) {s : CS} (h : CReachM fails c cut { a := a0, st := fun _ => .idle } s) :
    CInv (PartD fails c cut) cut n a0 s := by
  induction h with
  | start => exact ⟨h0, fun _ _ _ => rfl, (fun _ _ h => nomatch h), (fun _ _ h => nomatch h)⟩
  | @step s s' _ hs ih =>
    refine ih.stepG (run := RunM fails c cut) (effectM hg hrows hn hcut) hcut h0 hrel ?_
    cases hs with
    | start t ht hi => exact .start s t ht hi
    | scribble t snap a' hr ha => exact .scribble s t snap a' hr ha
    | commit t snap S' junk hj hr hrun => exact .commit s t snap S' hr ⟨junk, _, _, hj, hrun⟩

theorem cutPassM_sound {c : Col} (hg : c.Good) (hrows : c.rows = n) (hn : n < 2 ^ 63) (hcut : ValidCut cut n) {ix ix' : List Nat}
    (h0 : ix.length = n) (hrel : Rel cut ix) (h : CutPassM fails c cut ix ix') :
    ix'.length = n ∧ ∀ t, t < cut.length →
      PartD fails c cut t (seg ix' (partLo cut t) (partHi cut t)) (seg ix (partLo cut t) (partHi cut t)) := by
  obtain ⟨s, h1, h2, rfl⟩ := h
  have i := reachM_inv hg hrows hn hcut h0 hrel h1
  exact ⟨i.len, fun t ht => i.done t ht (h2 t ht)⟩

theorem cutPassM_exists {c : Col} (hg : c.Good) (hrows : c.rows = n) (hn : n < 2 ^ 63) (hcut : ValidCut cut n) {ix : List Nat}
    (h0 : ix.length = n) (hrel : Rel cut ix) : ∃ ix', CutPassM fails c cut ix ix' := by
  suffices h : ∀ m, m ≤ cut.length → ∃ s, CReachM fails c cut { a := ix, st := fun _ => .idle } s ∧
      ∀ t, s.st t = if t < m then .done else .idle by
    obtain ⟨s, h1, h2⟩ := h cut.length (Nat.le_refl _)
    exact ⟨s.a, s, h1, fun t ht => by rw [h2 t, if_pos ht], rfl⟩
  intro m
  induction m with
  | zero => intro _; exact ⟨_, .start, fun t => by simp⟩
  | succ m ih =>
    intro hm
    obtain ⟨s, h1, h2⟩ := ih (by omega)
    have i := reachM_inv hg hrows hn hcut h0 hrel h1
    have hi : s.st m = .idle := by rw [h2 m, if_neg (by omega)]
    have hsn := i.idle m (by omega) hi
    have hhi := hcut.hi_le (t := m) (by omega)
    obtain ⟨S', e1, e2⟩ := passSerial_ok (slice_good hg (partLo cut m) (partHi cut m)) (seg s.a (partLo cut m) (partHi cut m))
      (List.replicate ((seg s.a (partLo cut m) (partHi cut m)).length / 2) 0)
      (by rw [slice_rows c (by omega), hsn]; exact hrel m (by omega)) (by rw [seg_length (by rw [i.len]; exact hhi)]; omega) (by simp)
    have hx : ∃ rc S'' h', partM (fun _ => !fails m) (fun m => List.replicate m 0) (c.slice (partLo cut m) (partHi cut m))
        (seg s.a (partLo cut m) (partHi cut m)) ⟨[], 0⟩ = some ((rc, S''), h') := by
      rw [partM_eq _ _ (slice_good hg _ _), e1]
      cases fails m
      · exact ⟨_, _, _, rfl⟩
      · exact ⟨_, _, _, rfl⟩
    obtain ⟨rc, S'', h', hx⟩ := hx
    refine ⟨_, (h1.step (.start s m (by omega) hi)).step (.commit _ m _ S'' _ (fun _ => List.length_replicate) (by simp) hx), fun t => ?_⟩
    by_cases e : t = m
    · subst e; simp
    · simp only [Function.update_of_ne e, h2 t]
      by_cases ht : t < m
      · rw [if_pos ht, if_pos (by omega)]
      · rw [if_neg ht, if_neg (by omega)]

end

end Pnumpy.OutOfMemory
