import Verif.Proofs.OutOfMemory
import Verif.Props.SortApi
/-
Property theorems C97: running out of memory in the sorts.

`ok` and `fails` are arbitrary: any pattern of refused requests.
-/
namespace Pnumpy.Props
open Spec Pnumpy.Sort Pnumpy.ParSort Pnumpy.SortApi Pnumpy.Lex Pnumpy.OutOfMemory

/-- The first eighth of an array, the part the first task of a threaded sort handles. -/
abbrev firstEighth {α : Type} (l : List α) : List α := l.take (l.length / 8)

theorem source_eq {α : Type} (rd : Int → α) (n : Nat) (size : Nat) : threadedSource rd n size = viewElems rd n size := rfl

theorem part_zero {α : Type} (a : List α) : part a.length a 0 0 = firstEighth a := by
  show seg a (nodeLo a.length 0 0) (nodeHi a.length 0 0) = _
  unfold seg nodeLo nodeHi endPos
  simp only [Nat.zero_mul, Nat.zero_add, Nat.pow_zero, Nat.mul_one]
  simp [Nat.div_div_eq_div_mul]

theorem parSortM_sound (t : DT) (ok fails : Nat → Bool) (k : Kind) (inPlace threads : Bool) (rd : Int → BitVec t.bits) (n : Nat) (hn : n < 2 ^ 63)
    (stride : Int) (size : Nat) (hs : inPlace = true ∨ stride = size) (out : List (BitVec t.bits)) (ho : out.length = n) (h h' : Heap) (rc : Int)
    (r : List (BitVec t.bits)) (hr : ParSortM ok fails (ops t) k inPlace threads rd n stride size out h rc r h') :
    h'.live = h.live ∧ (rc = 0 ∨ rc = -1) ∧ (rc = 0 → r.Perm (viewElems rd n size)) ∧
    (rc = -1 → r = viewElems rd n size ∨ r = out ∧ inPlace = false) ∧
    (rc = 0 → threads = true → 65536 ≤ n → ∀ j, j < 8 → Failing fails k size n j → (part n (viewElems rd n size) 0 j).Sublist r) ∧
    (rc = 0 → (threads = true → 65536 ≤ n → ∀ j, j < 8 → ¬ Failing fails k size n j) → Ascending (before t) r) := by
  have hl := viewElems_length rd n size
  cases hr with
  | noWorkspace ht hnn hp =>
    refine ⟨?_, Or.inr rfl, fun e => absurd e (by decide), fun _ => ?_, fun e => absurd e (by decide), fun e => absurd e (by decide)⟩
    · rcases wsAlloc_cases ok h with ⟨_, e⟩ | ⟨_, e⟩ <;> rw [e] at hp
      · exact absurd (Prod.mk.inj (Option.some.inj hp)).1 (by simp)
      · rw [← (Prod.mk.inj (Option.some.inj hp)).2]
    · cases inPlace
      · exact Or.inr ⟨rfl, rfl⟩
      · exact Or.inl rfl
  | @parallel p h1 _ m junk hj w s ht hnn hp hnull hw hreach h8 hf =>
    have hreach' : Reach (leafM fails (ops t) k size junk) (parMerge (direct (ops t).lt)) (viewElems rd n size).length
        (if inPlace then none else some (viewElems rd n size)) (init (if inPlace then viewElems rd n size else out) w) s := by
      rw [hl]; exact hreach
    obtain ⟨p1, p2, p3⟩ := parallel_result t fails k size junk hj (viewElems rd n size) inPlace out (by rw [hl]; exact ho) w
      (by rw [hl]; exact hw) (by rw [hl]; exact hnn) (by rw [hl]; exact hn) s hreach' h8
    rw [hl] at p2 p3
    exact ⟨alloc_free hp hnull _ hf, Or.inl rfl, fun _ => p1, fun e => absurd e (by decide), fun _ _ _ => p2,
      fun _ hx => (ascending_iff (ops_lt_iff t) _).1 (p3 (hx ht hnn))⟩
  | serial junk hj ht hr =>
    have e : (if inPlace then threadedSource rd n size else copyData rd n stride size) = viewElems rd n size := by
      rw [copyData_eq]
      cases inPlace
      · rcases hs with hs | hs
        · cases hs
        · rw [hs]; rfl
      · rfl
    rw [e] at hr
    obtain ⟨h1, h2, h3, h4⟩ := sortM_live hr
    have key : rc = 0 → r.Perm (viewElems rd n size) ∧ Ascending (before t) r := fun hrc => by
      have h5 := h3 hrc
      obtain ⟨S', q1, q2, q3, _⟩ := sortFn_correct (opsOk t) k [] (viewElems rd n size) [] (junk ((viewElems rd n size).length / 2)) (hj _) (by omega)
      simp only [List.nil_append, List.append_nil, List.length_nil, hl] at q1
      rw [h5] at q1
      obtain rfl := Option.some.inj q1
      exact ⟨q2, (ascending_iff (ops_lt_iff t) _).1 q3⟩
    refine ⟨h1, h2, fun hrc => (key hrc).1, fun hrc => Or.inl (h4 hrc), fun _ a b => ?_, fun hrc _ => (key hrc).2⟩
    rcases ht with ht | ht
    · rw [ht] at a; cases a
    · omega

/-- C97: whatever requests for memory are refused, a sort ends without a crash; it gives back every workspace it got; its result
code is 0 or -1; a result 0 comes with the elements of the array in some order, a result -1 with the array as it was (in
place) or with an output that is a plain copy or untouched. -/
theorem C97_sort_safe (t : DT) (ok fails : Nat → Bool) (k : Kind) (inPlace threads : Bool) (rd : Int → BitVec t.bits) (n : Nat) (hn : n < 2 ^ 63)
    (stride : Int) (size : Nat) (hs : inPlace = true ∨ stride = size) (out : List (BitVec t.bits)) (ho : out.length = n) (h : Heap) :
    (∃ rc r h', ParSortM ok fails (ops t) k inPlace threads rd n stride size out h rc r h') ∧
    ∀ rc r h', ParSortM ok fails (ops t) k inPlace threads rd n stride size out h rc r h' →
      h'.live = h.live ∧ (rc = 0 ∧ r.Perm (viewElems rd n size) ∨
        rc = -1 ∧ (r = viewElems rd n size ∨ r = out ∧ inPlace = false)) := by
  have hl := viewElems_length rd n size
  constructor
  · by_cases hc : threads = true ∧ 65536 ≤ n
    · obtain ⟨ht, hnn⟩ := hc
      rcases wsAlloc_cases ok h with ⟨_, e⟩ | ⟨_, e⟩
      · obtain ⟨s, h1, h2⟩ := parallel_exists t fails k size (fun m => List.replicate m 0) (fun m => List.length_replicate) (viewElems rd n size)
          inPlace out (by rw [hl]; exact ho) (List.replicate (8 * (n / 16 + 1)) 0) (by rw [hl, List.length_replicate]) (by rw [hl]; exact hnn)
          (by rw [hl]; exact hn)
        rw [hl] at h1
        exact ⟨0, s.a, _, .parallel 0 _ (fun m => List.length_replicate) _ s ht hnn e (by simp) List.length_replicate h1 h2
          (wsFree_block h.asked _ h.live)⟩
      · exact ⟨_, _, _, .noWorkspace ht hnn e⟩
    · have ht : threads = false ∨ n < 65536 := by
        by_cases hb : threads = true
        · right; by_contra hx; exact hc ⟨hb, by omega⟩
        · left; simpa using hb
      have hlen : (if inPlace then threadedSource rd n size else copyData rd n stride size).length = n := by
        cases inPlace
        · simp only [Bool.false_eq_true, if_false, copyData_eq]; exact viewElems_length _ _ _
        · exact hl
      generalize hA : (if inPlace then threadedSource rd n size else copyData rd n stride size) = A at hlen
      obtain ⟨S', q1, q2, _⟩ := sortFn_correct (opsOk t) k [] A [] (List.replicate (A.length / 2) 0) List.length_replicate (by omega)
      simp only [List.nil_append, List.append_nil, List.length_nil, hlen] at q1
      obtain ⟨f1, f2, f3⟩ := sortM_heap ok (ops t) k size (fun m => List.replicate m 0) A 0 n h
      have hx : ∃ rc r h2, sortM ok (ops t) k size (fun m => List.replicate m 0) A 0 n h = some ((rc, r), h2) := by
        by_cases hb : asks k size n
        · cases hk : ok h.asked
          · exact ⟨_, _, _, f1 hb hk⟩
          · exact ⟨0, S', _, by rw [f2 hb hk, q1]; rfl⟩
        · exact ⟨0, S', _, by rw [f3 hb, q1]; rfl⟩
      obtain ⟨rc, r, h2, hx⟩ := hx
      exact ⟨rc, r, h2, .serial _ (fun m => List.length_replicate) ht (by rw [hA]; exact hx)⟩
  · intro rc r h' hr
    obtain ⟨h1, h2, h3, h4, _⟩ := parSortM_sound t ok fails k inPlace threads rd n hn stride size hs out ho h h' rc r hr
    refine ⟨h1, ?_⟩
    rcases h2 with h2 | h2
    · exact Or.inl ⟨h2, h3 h2⟩
    · exact Or.inr ⟨h2, h4 h2⟩

/-- No memory at all, merge sort in place of 3000 int64 values, no threads: code -1 and the array as it was. -/
example (rd : Int → BitVec DT.i64.bits) (r : List (BitVec DT.i64.bits)) (rc : Int) (h' : Heap)
    (hr : ParSortM (fun _ => false) (fun _ => true) (ops .i64) .merge true false rd 3000 8 8 (viewElems rd 3000 8) ⟨[], 0⟩ rc r h') :
    rc = -1 ∧ r = viewElems rd 3000 8 ∧ h'.live = [] := by
  obtain ⟨h1, h2⟩ := (C97_sort_safe .i64 (fun _ => false) (fun _ => true) .merge true false rd 3000 (by decide) 8 8 (Or.inl rfl)
    (viewElems rd 3000 8) (viewElems_length _ _ _) ⟨[], 0⟩).2 rc r h' hr
  have hrc : rc = -1 := by
    cases hr with
    | noWorkspace ht => cases ht
    | parallel m junk hj w s ht => cases ht
    | serial junk hj ht hr =>
      rw [(sortM_heap _ _ _ _ _ _ _ _ _).1 ⟨rfl, by decide⟩ rfl] at hr
      exact (Prod.mk.inj (Prod.mk.inj (Option.some.inj hr)).1).1.symm
  rcases h2 with ⟨e, _⟩ | ⟨_, e⟩
  · omega
  · rcases e with e | ⟨_, e⟩
    · exact ⟨hrc, e, h1⟩
    · cases e

/-- C97 (partial: in a threaded merge sort no task may be refused its workspace, see `C97_failed_task_violated`): a sort that
returns 0 has sorted, whatever other requests for memory were refused. -/
theorem C97_sort_partial (t : DT) (ok fails : Nat → Bool) (k : Kind) (inPlace threads : Bool) (rd : Int → BitVec t.bits) (n : Nat) (hn : n < 2 ^ 63)
    (stride : Int) (size : Nat) (hs : inPlace = true ∨ stride = size) (out : List (BitVec t.bits)) (ho : out.length = n) (h h' : Heap)
    (r : List (BitVec t.bits)) (hf : k = .merge → threads = true → 65536 ≤ n → ∀ p, fails p = false)
    (hr : ParSortM ok fails (ops t) k inPlace threads rd n stride size out h 0 r h') : IsSortOf (before t) r (viewElems rd n size) := by
  obtain ⟨_, _, h3, _, _, h6⟩ := parSortM_sound t ok fails k inPlace threads rd n hn stride size hs out ho h h' 0 r hr
  refine ⟨h3 rfl, h6 rfl fun a b j hj hF => ?_⟩
  obtain ⟨⟨e, _⟩, e2⟩ := hF
  rw [hf e a b] at e2
  cases e2

/-- Quicksort of 100000 values with threads: the tasks ask for nothing, so refusing everything after the first request does no harm. -/
example (rd : Int → BitVec DT.i32.bits) : ∃ r h', ParSortM (fun i => i == 0) (fun _ => true) (ops .i32) .quick true true rd 100000 4 4 (viewElems rd 100000 4) ⟨[], 0⟩ 0 r h' ∧
    IsSortOf (before .i32) r (viewElems rd 100000 4) := by
  have hl := viewElems_length rd 100000 4
  obtain ⟨rc, r, h', hr⟩ := (C97_sort_safe .i32 (fun i => i == 0) (fun _ => true) .quick true true rd 100000 (by decide) 4 4 (Or.inl rfl)
    (viewElems rd 100000 4) hl ⟨[], 0⟩).1
  have h0 : rc = 0 := by
    cases hr with
    | noWorkspace ht hnn hp => simp [wsAlloc] at hp
    | parallel => rfl
    | serial junk hj ht => rcases ht with ht | ht <;> simp at ht
  subst h0
  exact ⟨r, h', hr, C97_sort_partial .i32 _ _ .quick true true rd 100000 (by decide) 4 4 (Or.inl rfl) _ hl _ h' r (fun e => nomatch e) hr⟩

/-- C97, violated: a merge sort with threads whose first task is refused its workspace (the sort's own was granted) returns 0,
and, if the first eighth of the array is not in order, the array it returns is not sorted. Every size, every data, every
schedule. -/
theorem C97_failed_task_violated (t : DT) (ok fails : Nat → Bool) (inPlace : Bool) (rd : Int → BitVec t.bits) (n : Nat) (hn : n < 2 ^ 63)
    (h65 : 65536 ≤ n) (stride : Int) (size : Nat) (hsz : 1 ≤ size) (hs : inPlace = true ∨ stride = size) (out : List (BitVec t.bits)) (ho : out.length = n)
    (h : Heap) (hok : ok h.asked = true) (hf : fails 0 = true) (hbad : ¬ Ascending (before t) (firstEighth (viewElems rd n size))) :
    (∃ r h', ParSortM ok fails (ops t) .merge inPlace true rd n stride size out h 0 r h') ∧
    ∀ rc r h', ParSortM ok fails (ops t) .merge inPlace true rd n stride size out h rc r h' → rc = 0 ∧ ¬ Ascending (before t) r := by
  have hl := viewElems_length rd n size
  have key : ∀ rc r h', ParSortM ok fails (ops t) .merge inPlace true rd n stride size out h rc r h' → rc = 0 := by
    intro rc r h' hr
    cases hr with
    | noWorkspace ht hnn hp => simp [wsAlloc, hok] at hp
    | parallel => rfl
    | serial junk hj ht =>
      rcases ht with ht | ht
      · cases ht
      · omega
  constructor
  · obtain ⟨⟨rc, r, h', hr⟩, _⟩ := C97_sort_safe t ok fails .merge inPlace true rd n hn stride size hs out ho h
    obtain rfl := key rc r h' hr
    exact ⟨r, h', hr⟩
  · intro rc r h' hr
    have h0 := key rc r h' hr
    refine ⟨h0, fun hasc => hbad ?_⟩
    obtain ⟨_, _, _, _, h5, _⟩ := parSortM_sound t ok fails .merge inPlace true rd n hn stride size hs out ho h h' rc r hr
    have hF : Failing fails .merge size n 0 := by
      have e1 : nodeLo n 0 0 = 0 := by unfold nodeLo endPos; simp
      have e2 : nodeHi n 0 0 = n / 8 := by unfold nodeHi endPos; simp [Nat.div_div_eq_div_mul]
      refine ⟨⟨rfl, ?_⟩, by rw [e1]; exact hf⟩
      rw [e1, e2]
      have : n / 8 / 2 * 1 ≤ n / 8 / 2 * size := Nat.mul_le_mul_left _ hsz
      show 1024 < (n / 8 - 0) / 2 * size
      rw [Nat.sub_zero]
      omega
    have h6 := h5 h0 rfl h65 0 (by decide) hF
    have h7 : part n (viewElems rd n size) 0 0 = firstEighth (viewElems rd n size) := by
      have := part_zero (viewElems rd n size)
      rwa [hl] at this
    rw [h7] at h6
    exact hasc.sublist h6

/-- Descending bytes. -/
def downBytes (p : Int) : BitVec DT.u8.bits := BitVec.ofInt 8 (255 - p)

/-- 65536 descending bytes are such an array. -/
example : ¬ Ascending (before .u8) (firstEighth (viewElems downBytes 65536 1)) := by
  intro h
  have e : firstEighth (viewElems downBytes 65536 1) = viewElems downBytes 8192 1 := by
    unfold firstEighth viewElems
    rw [List.length_map, List.length_range, ← List.map_take, List.take_range]
    rfl
  rw [e] at h
  have h2 : (viewElems downBytes 2 1).Sublist (viewElems downBytes 8192 1) := by
    unfold viewElems
    exact (List.range_sublist.2 (by decide)).map _
  have h3 := h.sublist h2
  exact absurd h3 (by unfold viewElems; decide)

/-! ### np.sort and `_pnumpy.sort` -/

/-- C97 (partial, as `C97_sort_partial`): np.sort through the hook sorts, whatever requests are refused: numpy's own sort (which
sorts what it is given) is called on the untouched data if pnumpy fails. -/
theorem C97_np_sort_partial (t : DT) {np : List (BitVec t.bits) → List (BitVec t.bits) → Prop} (hnp : ∀ b r, np b r → IsSortOf (before t) r b)
    (ok fails : Nat → Bool) (k : Kind) (inPlace threads : Bool) (rd : Int → BitVec t.bits) (n : Nat) (hn : n < 2 ^ 63)
    (stride : Int) (size : Nat) (hs : inPlace = true ∨ stride = size) (out : List (BitVec t.bits)) (ho : out = viewElems rd n size) (h h' : Heap)
    (r : List (BitVec t.bits)) (hf : k = .merge → threads = true → 65536 ≤ n → ∀ p, fails p = false)
    (hr : HookM np ok fails (ops t) k inPlace threads rd n stride size out h r h') :
    IsSortOf (before t) r (viewElems rd n size) ∧ h'.live = h.live := by
  have hl : out.length = n := by rw [ho]; exact viewElems_length _ _ _
  cases hr with
  | @done rc _ _ hr hrc =>
    obtain ⟨h1, h2, _⟩ := parSortM_sound t ok fails k inPlace threads rd n hn stride size hs out hl h h' rc r hr
    have : rc = 0 := by omega
    subst this
    exact ⟨C97_sort_partial t ok fails k inPlace threads rd n hn stride size hs out hl h h' r hf hr, h1⟩
  | @numpy rc b _ _ hr hrc hnp' =>
    obtain ⟨h1, h2, _, h4, _⟩ := parSortM_sound t ok fails k inPlace threads rd n hn stride size hs out hl h h' rc b hr
    have hb : b = viewElems rd n size := by
      rcases h4 (by omega) with e | ⟨e, _⟩
      · exact e
      · rw [e, ho]
    exact ⟨hb ▸ hnp b r hnp', h1⟩

/-- A hook call that falls back to numpy. -/
example (rd : Int → BitVec DT.i64.bits) : ∃ r h', HookM (fun b r => IsSortOf (before .i64) r b) (fun _ => false) (fun _ => true) (ops .i64) .merge true false rd 3000 8 8
    (viewElems rd 3000 8) ⟨[], 0⟩ r h' := by
  obtain ⟨S', _, q2, q3, _⟩ := sortFn_correct (opsOk .i64) .merge [] (viewElems rd 3000 8) [] (List.replicate ((viewElems rd 3000 8).length / 2) 0)
    List.length_replicate (by rw [viewElems_length]; decide)
  refine ⟨S', _, .numpy (rc := -1) (b := viewElems rd 3000 8) (.serial (fun m => List.replicate m 0) (fun _ => List.length_replicate) (Or.inl rfl)
    ((sortM_heap _ _ _ _ _ _ _ _ _).1 ⟨rfl, by decide⟩ rfl)) (by decide) ⟨q2, (ascending_iff (ops_lt_iff .i64) _).1 q3⟩⟩

/-- C97 (partial, as `C97_sort_partial`): `_pnumpy.sort` returns a sorted copy, or raises; nothing stays allocated. -/
theorem C97_pn_sort_partial (t : DT) (ok fails : Nat → Bool) (k : Kind) (threads : Bool) (rd : Int → BitVec t.bits) (n : Nat) (hn : n < 2 ^ 63)
    (size : Nat) (out : List (BitVec t.bits)) (ho : out.length = n) (h h' : Heap) (r : Option (List (BitVec t.bits)))
    (hf : k = .merge → threads = true → 65536 ≤ n → ∀ p, fails p = false)
    (hr : PnSortM ok fails (ops t) k threads rd n size size out h r h') :
    (∀ l, r = some l → IsSortOf (before t) l (viewElems rd n size)) ∧ h'.live = h.live := by
  cases hr with
  | @done rc l _ hr hrc =>
    obtain ⟨h1, h2, _⟩ := parSortM_sound t ok fails k false threads rd n hn size size (Or.inr rfl) out ho h h' rc l hr
    have : rc = 0 := by omega
    subst this
    exact ⟨fun l' e => by
      obtain rfl := Option.some.inj e
      exact C97_sort_partial t ok fails k false threads rd n hn size size (Or.inr rfl) out ho h h' l hf hr, h1⟩
  | @raises rc l _ hr hrc =>
    obtain ⟨h1, _⟩ := parSortM_sound t ok fails k false threads rd n hn size size (Or.inr rfl) out ho h h' rc l hr
    exact ⟨fun l' e => (by cases e), h1⟩

/-- It raises for want of memory. -/
example (rd : Int → BitVec DT.i64.bits) (out : List (BitVec DT.i64.bits)) :
    PnSortM (fun _ => false) (fun _ => true) (ops .i64) .quick true rd 70000 8 8 out ⟨[], 0⟩ none ⟨[], 1⟩ :=
  .raises (.noWorkspace rfl (by decide) rfl) (by decide)

/-! ### lexsort -/

/-- The keys whose sort reported success. -/
def keptKeys : List Col → List Int → List Col
  | c :: cs, rc :: rcs => if rc = 0 then c :: keptKeys cs rcs else keptKeys cs rcs
  | _, _ => []

theorem kept_passes {k : Kind} {cs : List Col} {rcs : List Int} {ix ix' : List Nat} (h : SomePasses k cs rcs ix ix') :
    Passes k (keptKeys cs rcs) ix ix' := by
  induction h with
  | nil ix => exact .nil ix
  | good hp _ ih => exact .cons hp ih
  | bad _ ih => exact ih

/-- C97: whatever requests are refused, lexsort ends without a crash, gives back every workspace it got, and returns a
permutation: the result of sorting by the keys whose sorts were not refused. -/
theorem C97_lexsort_safe (ok : Nat → Bool) (k : Kind) (threads : Bool) (cs : List Col) (n : Nat) (hc : ∀ c ∈ cs, c.Sized ∧ c.rows = n)
    (hn : n < 2 ^ 63) (h : Heap) :
    (threads = false ∨ n < 65536 → ∃ rcs ix h', PassesM ok k threads cs (List.range n) h rcs ix h') ∧
    ∀ rcs ix h', PassesM ok k threads cs (List.range n) h rcs ix h' →
      h'.live = h.live ∧ ix.Perm (List.range n) ∧ rcs.length = cs.length ∧ (∀ rc ∈ rcs, rc = 0 ∨ rc = -1) ∧ LexRun k (keptKeys cs rcs) n ix := by
  refine ⟨fun ht => passesM_exist hc (fun i hi => List.mem_range.1 hi) (by simpa using hn) (by simpa using ht) h, fun rcs ix h' hr => ?_⟩
  obtain ⟨h1, h2, h3, h4⟩ := passesM_sound hr
  have hp : Passes k (keptKeys cs rcs) (List.range n) ix := kept_passes h4
  refine ⟨h1, ?_, h2, h3, hp⟩
  refine passes_perm (n := n) (cs := keptKeys cs rcs) (fun c hcc => hc c ?_) (fun i hi => List.mem_range.1 hi) (by simpa using hn) hp
  clear h4 hp h3 h2 h1 hr hc
  induction cs generalizing rcs with
  | nil => cases rcs <;> simp [keptKeys] at hcc
  | cons d cs ih =>
    cases rcs with
    | nil => simp [keptKeys] at hcc
    | cons rc rcs =>
      unfold keptKeys at hcc
      split at hcc
      · rcases List.mem_cons.1 hcc with e | e
        · simp [e]
        · exact List.mem_cons_of_mem _ (ih rcs e)
      · exact List.mem_cons_of_mem _ (ih rcs hcc)

/-- Three rows, no memory: both keys are dropped. -/
example : ∃ ix h', PassesM (fun _ => false) .merge true threeRows (List.range 3) ⟨[], 0⟩ [-1, -1] ix h' ∧ h'.live = [] :=
  ⟨_, _, .cons (.serial (fun m => List.replicate m 0) (fun _ => List.length_replicate) (Or.inr (by decide)) rfl)
    (.cons (.serial (fun m => List.replicate m 0) (fun _ => List.length_replicate) (Or.inr (by decide)) rfl) (.nil _ _)), rfl⟩

/-- C97 (partial: the sort of no key may be refused, see `C97_lexsort_violated`; and the restrictions of C24): the result is the
lexsort by all keys. -/
theorem C97_lexsort_partial (ok : Nat → Bool) (threads : Bool) (cs : List Col) (n : Nat) (hc : ∀ c ∈ cs, c.Good ∧ c.rows = n)
    (hn : n < 2 ^ 63) (hs : (∃ c ∈ cs, Col.isStr c) → n < 65536) (h h' : Heap) (rcs : List Int) (ix : List Nat)
    (hr : PassesM ok .merge threads cs (List.range n) h rcs ix h') (h0 : ∀ rc ∈ rcs, rc = 0) :
    IsStableArgsort (RowBefore (cs.map Col.before)) id n ix := by
  obtain ⟨_, _, h3, _, h5⟩ := (C97_lexsort_safe ok .merge threads cs n (fun c hcc => ⟨good_sized (hc c hcc).1, (hc c hcc).2⟩) hn h).2 rcs ix h' hr
  have e : keptKeys cs rcs = cs := by
    clear hr h5 hs hc
    induction cs generalizing rcs with
    | nil => cases rcs <;> rfl
    | cons c cs ih =>
      cases rcs with
      | nil => simp at h3
      | cons rc rcs =>
        unfold keptKeys
        rw [if_pos (h0 rc (by simp)), ih rcs (fun r hr => h0 r (by simp [hr])) (by simpa using h3) (fun r hr => Or.inl (h0 r (by simp [hr])))]
  rw [e] at h5
  exact (C24_lexsort_partial cs n hc hn hs).2 ix h5

/-- Memory enough for all keys. -/
example : ∃ rcs ix h', PassesM (fun _ => true) .merge true threeRows (List.range 3) ⟨[], 0⟩ rcs ix h' ∧
    IsStableArgsort (RowBefore (threeRows.map Col.before)) id 3 ix := by
  obtain ⟨rcs, ix, h', hr⟩ := (C97_lexsort_safe (fun _ => true) .merge true threeRows 3
    (fun c hcc => ⟨good_sized (threeRows_good c hcc).1, (threeRows_good c hcc).2⟩) (by decide) ⟨[], 0⟩).1 (Or.inr (by decide))
  refine ⟨rcs, ix, h', hr, C97_lexsort_partial (fun _ => true) true threeRows 3 threeRows_good (by decide) (fun _ => by decide) _ _ rcs ix hr
    (passesM_granted (fun c hcc => (threeRows_good c hcc).1) hr)⟩

/-- C97, violated: when no workspace can be had, lexsort (merge sort, its default) does not raise: it returns 0 .. n-1, whatever
the keys are. -/
theorem C97_lexsort_violated (threads : Bool) (cs : List Col) (n : Nat) (h h' : Heap) (rcs : List Int) (ix : List Nat)
    (hr : PassesM (fun _ => false) .merge threads cs (List.range n) h rcs ix h') : ix = List.range n := by
  generalize List.range n = ix0 at hr
  induction hr with
  | nil => rfl
  | cons hp _ ih => rw [ih, refused_keeps hp]

/-- Two rows with keys 2 and 1: the order returned is not ascending. -/
example (ix : List Nat) (rcs : List Int) (h' : Heap)
    (hr : PassesM (fun _ => false) .merge true [.num .i8 [2#8, 1#8]] (List.range 2) ⟨[], 0⟩ rcs ix h') :
    ix = [0, 1] ∧ (Col.num .i8 [2#8, 1#8]).before 1 0 :=
  ⟨C97_lexsort_violated true _ 2 _ _ rcs ix hr, by show before .i8 (1 : BitVec DT.i8.bits) (2 : BitVec DT.i8.bits); decide⟩

/-! ### lexsort with cutoffs -/

/-- C97: whatever partitions are refused their workspace, one pass of lexsort with cutoffs ends; the index array keeps its length,
refused partitions keep their contents, the others are sorted by the key, stably; every schedule. -/
theorem C97_cutoffs (fails : Nat → Bool) (c : Col) (hg : c.Good) (cut ix : List Nat) (n : Nat) (hrows : c.rows = n) (hn : n < 2 ^ 63)
    (hasc : cut.Pairwise (· ≤ ·)) (hlast : cut.getLast? = some n) (h0 : ix.length = n)
    (hrel : ∀ t, t < cut.length → ∀ i ∈ (ix.drop (cutLo cut t)).take (cutHi cut t - cutLo cut t), i < cutHi cut t - cutLo cut t) :
    (∃ ix', CutPassM fails c cut ix ix') ∧
    ∀ ix', CutPassM fails c cut ix ix' → ix'.length = n ∧ ∀ t, t < cut.length →
      let old := (ix.drop (cutLo cut t)).take (cutHi cut t - cutLo cut t)
      let new := (ix'.drop (cutLo cut t)).take (cutHi cut t - cutLo cut t)
      (fails t = true → new = old) ∧
      (fails t = false → new.Perm old ∧ Ascending (c.slice (cutLo cut t) (cutHi cut t)).before new) := by
  have hcut : ValidCut cut n := ⟨hasc, hlast⟩
  refine ⟨cutPassM_exists hg hrows hn hcut h0 hrel, fun ix' hr => ?_⟩
  obtain ⟨h1, h2⟩ := cutPassM_sound hg hrows hn hcut h0 hrel hr
  refine ⟨h1, fun t ht => ?_⟩
  obtain ⟨h3, h4⟩ := h2 t ht
  refine ⟨h3, fun hf => ?_⟩
  have hhi := hcut.hi_le ht
  obtain ⟨h5, h6⟩ := SS_refines (slice_good hg (partLo cut t) (partHi cut t)) (by rw [slice_rows c (by omega)]; exact hrel t ht) (h4 hf)
  exact ⟨h5, (h6 (fun _ _ => True) (List.pairwise_of_forall fun _ _ => trivial)).imp fun h => h.1⟩

theorem fourBytes_good : (Col.num .i8 [4#8, 3#8, 2#8, 1#8]).Good := ⟨(fun h => nomatch h), fun _ _ h => nomatch h⟩

theorem twoParts (t : Nat) (ht : t < [2, 4].length) : ∀ i ∈ ([0, 1, 0, 1].drop (cutLo [2, 4] t)).take (cutHi [2, 4] t - cutLo [2, 4] t),
    i < cutHi [2, 4] t - cutLo [2, 4] t := by
  match t, ht with
  | 0, _ => decide
  | 1, _ => decide

/-- C97, violated with cutoffs: the keys 4 3 | 2 1, the second partition is refused its workspace: no error, and its half of the
result is as it was, 0 1, although key 1 is smaller than key 2. -/
theorem C97_cutoffs_violated : (∃ ix, CutPassM (fun t => t == 1) (.num .i8 [4#8, 3#8, 2#8, 1#8]) [2, 4] [0, 1, 0, 1] ix) ∧
    (∀ ix, CutPassM (fun t => t == 1) (.num .i8 [4#8, 3#8, 2#8, 1#8]) [2, 4] [0, 1, 0, 1] ix → ix.drop 2 = [0, 1]) ∧
    ((Col.num .i8 [4#8, 3#8, 2#8, 1#8]).slice 2 4).before 1 0 := by
  obtain ⟨h1, h2⟩ := C97_cutoffs (fun t => t == 1) _ fourBytes_good [2, 4] [0, 1, 0, 1] 4 rfl (by decide) (by decide) rfl rfl twoParts
  refine ⟨h1, fun ix hr => ?_, by show before .i8 (1 : BitVec DT.i8.bits) (2 : BitVec DT.i8.bits); decide⟩
  obtain ⟨hl, h3⟩ := h2 ix hr
  have h4 := (h3 1 (by decide)).1 rfl
  have h5 : (ix.drop 2).take 2 = [0, 1] := h4
  rwa [List.take_of_length_le (by simp [hl])] at h5

end Pnumpy.Props
