import Verif.Proofs.Elementwise
/- Running the (interleaved) kernel calls of an element-wise operation. -/
namespace Pnumpy.Elem
open Pnumpy.Spec

/-- A load of lane `l` reads the two operands of that lane, possibly swapped if `f` allows it. -/
def LoadOK {α : Type} (f : α → α → α) (A : Args) (l : Nat) (x y : Int) : Prop :=
  (∀ m : Int → α, f (m x) (m y) = f (m (strided A.p1 A.s1 l)) (m (strided A.p2 A.s2 l))) ∧
  (x = strided A.p1 A.s1 l ∨ x = strided A.p2 A.s2 l) ∧
  (y = strided A.p1 A.s1 l ∨ y = strided A.p2 A.s2 l)

/-- Kernel program that processes every lane in order (also correct in place). -/
def KernelSeg {α : Type} (f : α → α → α) (A : Args) (n : Nat) (es : List Acc) : Prop :=
  Seg (LoadOK f A) (strided A.po A.so) 0 n es

/-- Kernel program that processes every lane, possibly more than once. -/
def KernelCover {α : Type} (f : α → α → α) (A : Args) (n : Nat) (es : List Acc) : Prop :=
  Cover (LoadOK f A) (strided A.po A.so) 0 n es

theorem countP_unique {α : Type} {p : α → Bool} : ∀ {l : List α}, l.countP p ≤ 1 →
    ∀ {i j : Nat} {x y : α}, l[i]? = some x → l[j]? = some y → p x = true → p y = true → i = j
  | [], _, i, _, _, _, hi, _, _, _ => by simp at hi
  | a :: l, h, i, j, x, y, hi, hj, hx, hy => by
    have key : ∀ {k : Nat} {z : α}, l[k]? = some z → p z = true → p a = true → False := by
      intro k z hk hz ha
      rw [List.countP_cons_of_pos ha] at h
      have hpos : 0 < l.countP p := List.countP_pos_iff.mpr ⟨z, List.mem_of_getElem? hk, hz⟩
      omega
    cases i with
    | zero =>
      cases j with
      | zero => rfl
      | succ j =>
        simp only [List.getElem?_cons_zero, Option.some.injEq, List.getElem?_cons_succ] at hi hj
        subst hi
        exact (key hj hy hx).elim
    | succ i =>
      cases j with
      | zero =>
        simp only [List.getElem?_cons_zero, Option.some.injEq, List.getElem?_cons_succ] at hi hj
        subst hj
        exact (key hi hx hy).elim
      | succ j =>
        simp only [List.getElem?_cons_succ] at hi hj
        rw [List.countP_cons] at h
        exact congrArg _ (countP_unique (by omega) hi hj hx hy)

/-- An access tagged `c` belongs to program `c`. -/
theorem inter_mem {progs : List (List Acc)} {evs : List (Nat × Acc)} (h : Interleaving progs evs)
    {c : Nat} {e : Acc} (he : (c, e) ∈ evs) : e ∈ progs.getD c [] := by
  rw [← h c]
  exact List.mem_map.mpr ⟨(c, e), List.mem_filter.mpr ⟨he, by simp⟩, rfl⟩

theorem inter_mem' {progs : List (List Acc)} {evs : List (Nat × Acc)} (h : Interleaving progs evs)
    {c : Nat} {e : Acc} (he : e ∈ progs.getD c []) : (c, e) ∈ evs := by
  rw [← h c] at he
  obtain ⟨⟨c', e'⟩, h1, h2⟩ := List.mem_map.mp he
  obtain ⟨h3, h4⟩ := List.mem_filter.mp h1
  simp only [beq_iff_eq] at h4
  simp only at h2
  subst h4 h2
  exact h3

theorem inter_split {progs : List (List Acc)} {pre post : List (Nat × Acc)} {c : Nat} {e : Acc}
    (h : Interleaving progs (pre ++ (c, e) :: post)) :
    ∃ p q, progs.getD c [] = p ++ e :: q ∧ (∀ e', e' ∈ p ↔ (c, e') ∈ pre) := by
  refine ⟨(pre.filter fun e => e.1 == c).map (·.2), (post.filter fun e => e.1 == c).map (·.2), ?_, ?_⟩
  · rw [← h c]; simp [List.filter_append]
  · intro e'
    constructor
    · intro h'
      obtain ⟨⟨c', e''⟩, h1, h2⟩ := List.mem_map.mp h'
      obtain ⟨h3, h4⟩ := List.mem_filter.mp h1
      simp only [beq_iff_eq] at h4
      simp only at h2
      subst h4 h2
      exact h3
    · intro h'
      exact List.mem_map.mpr ⟨(c, e'), List.mem_filter.mpr ⟨h', by simp⟩, rfl⟩

theorem strided_at (p s : Int) (k l : Nat) : strided (p + s * k) s l = p + s * ((k + l : Nat) : Int) := by
  unfold strided
  rw [Int.natCast_add, Int.mul_add, Int.add_assoc]

variable {α : Type}

/-- What is needed of the accesses of all calls for the final memory to be right. -/
theorem exec_calls {f : α → α → α} {A : Args} {n : Nat} {calls : List (Nat × Nat)}
    {prog : Nat × Nat → List Acc} {evs : List (Nat × Acc)} (m : Int → α)
    (honce : ExactlyOnce n calls)
    (hk : ∀ c ∈ calls, KernelCover f (A.at c.1) c.2 (prog c))
    (hint : Interleaving (calls.map prog) evs)
    (hout : ∀ i j : Nat, i < n → j < n → i ≠ j → A.po + A.so * i ≠ A.po + A.so * j)
    (hsafe : (∀ c ∈ calls, KernelSeg f (A.at c.1) c.2 (prog c)) ∧
        SafeOverlap n A.p1 A.s1 A.p2 A.s2 A.po A.so ∨
        NoOverlap n A.p1 A.s1 A.p2 A.s2 A.po A.so) :
    ∃ m', runMem f m evs = some m' ∧ ElementwiseResult f n A.p1 A.s1 A.p2 A.s2 A.po A.so m m' := by
  let first : Nat → Nat := fun c => (calls.getD c (0, 0)).1
  let V : Nat → Nat → α := fun c l =>
    f (m (A.p1 + A.s1 * ((first c + l : Nat) : Int))) (m (A.p2 + A.s2 * ((first c + l : Nat) : Int)))
  -- every access belongs to some call
  have hcall : ∀ {c e}, e ∈ (calls.map prog).getD c [] →
      ∃ call, calls[c]? = some call ∧ call ∈ calls ∧ e ∈ prog call ∧ first c = call.1 ∧
        (calls.map prog).getD c [] = prog call := by
    intro c e he
    rw [List.getD_eq_getElem?_getD, List.getElem?_map] at he ⊢
    cases hc : calls[c]? with
    | none => rw [hc] at he; simp at he
    | some call =>
      rw [hc] at he
      refine ⟨call, rfl, List.mem_of_getElem? hc, by simpa using he, ?_, by simp⟩
      show (calls.getD c (0, 0)).1 = _
      rw [List.getD_eq_getElem?_getD, hc]; rfl
  have hlt : ∀ {c : Nat} {call : Nat × Nat} {l : Nat}, calls[c]? = some call → l < call.2 →
      call.1 + l < n ∧ covers (call.1 + l) call = true := by
    intro c call l hc hl
    have hcov : covers (call.1 + l) call = true := by
      unfold covers; simp only [Bool.and_eq_true, decide_eq_true_eq]; omega
    refine ⟨?_, hcov⟩
    have h1 := honce (call.1 + l)
    have h2 : 0 < timesProcessed calls (call.1 + l) :=
      List.countP_pos_iff.mpr ⟨call, List.mem_of_getElem? hc, hcov⟩
    rw [h1] at h2
    split at h2
    · assumption
    · omega
  -- description of an access
  have hstore : ∀ {c l a}, (c, Acc.store l a) ∈ evs →
      ∃ i : Nat, i = first c + l ∧ i < n ∧ a = A.po + A.so * (i : Int) ∧
        ∃ call, calls[c]? = some call ∧ first c = call.1 ∧ l < call.2 := by
    intro c l a h
    obtain ⟨call, h1, h2, h3, h4, _⟩ := hcall (inter_mem hint h)
    have hb := ((hk call h2).bound _ h3).2
    have ha := (hk call h2).stores l a h3
    refine ⟨first c + l, rfl, ?_, ?_, call, h1, h4, hb⟩
    · rw [h4]; exact (hlt h1 hb).1
    · rw [ha, h4]; exact strided_at A.po A.so call.1 l
  have hload : ∀ {c l x y}, (c, Acc.load l x y) ∈ evs →
      f (m x) (m y) = V c l ∧ ∃ i : Nat, i = first c + l ∧ i < n ∧
        (x = A.p1 + A.s1 * (i : Int) ∨ x = A.p2 + A.s2 * (i : Int)) ∧
        (y = A.p1 + A.s1 * (i : Int) ∨ y = A.p2 + A.s2 * (i : Int)) ∧
        ∃ call, calls[c]? = some call ∧ first c = call.1 ∧ l < call.2 := by
    intro c l x y h
    obtain ⟨call, h1, h2, h3, h4, _⟩ := hcall (inter_mem hint h)
    have hb := ((hk call h2).bound _ h3).2
    obtain ⟨k1, k2, k3⟩ := (hk call h2).loads l x y h3
    have e1 : strided (A.at call.1).p1 (A.at call.1).s1 l =
        A.p1 + A.s1 * ((first c + l : Nat) : Int) := by rw [h4]; exact strided_at A.p1 A.s1 call.1 l
    have e2 : strided (A.at call.1).p2 (A.at call.1).s2 l =
        A.p2 + A.s2 * ((first c + l : Nat) : Int) := by rw [h4]; exact strided_at A.p2 A.s2 call.1 l
    rw [e1, e2] at k1 k2 k3
    exact ⟨k1 m, first c + l, rfl, by rw [h4]; exact (hlt h1 hb).1, k2, k3, call, h1, h4, hb⟩
  have hgood : GoodRun f m V evs := by
    intro pre c e post he
    have hmem : ∀ {x}, x ∈ pre → x ∈ evs := by intro x hx; rw [he]; simp [hx]
    have hin : (c, e) ∈ evs := by rw [he]; simp
    cases e with
    | load l x y =>
      simp only
      obtain ⟨hv, i, hi, hin', hx, hy, call, hc, hf, hl⟩ := hload hin
      refine ⟨hv, ?_⟩
      intro c' l' a hs
      obtain ⟨i', hi', hin'', ha, call', hc', hf', hl'⟩ := hstore (hmem hs)
      rcases hsafe with ⟨hseg, hsafe⟩ | hno
      · by_cases hii : i' = i
        · -- same element: same call and lane, but the lane was not stored before
          exfalso
          have hcov := (hlt hc hl).2
          have hcov' := (hlt hc' hl').2
          rw [← hf, ← hi] at hcov
          rw [← hf', ← hi', hii] at hcov'
          have hone : calls.countP (covers i) ≤ 1 := by
            have := honce i
            unfold timesProcessed at this
            rw [this]; split <;> omega
          have hcc : c' = c := countP_unique hone hc' hc hcov' hcov
          subst hcc
          have hll : l' = l := by omega
          subst hll
          rw [he] at hint
          obtain ⟨p, q, hp, hpre⟩ := inter_split hint
          have hmemc : call ∈ calls := List.mem_of_getElem? hc
          have hprog : (calls.map prog).getD c' [] = prog call := by
            rw [List.getD_eq_getElem?_getD, List.getElem?_map, hc]; rfl
          rw [hprog] at hp
          exact (hseg call hmemc).fresh p l' x y q hp a ((hpre _).mpr hs)
        · have := hsafe i' i hin'' hin' hii
          rw [ha]
          constructor
          · rcases hx with hx | hx <;> rw [hx]
            · exact this.2.1
            · exact this.2.2
          · rcases hy with hy | hy <;> rw [hy]
            · exact this.2.1
            · exact this.2.2
      · have := hno i' i hin'' hin'
        rw [ha]
        constructor
        · rcases hx with hx | hx <;> rw [hx]
          · exact this.2.1
          · exact this.2.2
        · rcases hy with hy | hy <;> rw [hy]
          · exact this.2.1
          · exact this.2.2
    | store l a =>
      simp only
      constructor
      · obtain ⟨call, h1, h2, h3, h4, h5⟩ := hcall (inter_mem hint hin)
        rw [he] at hint
        obtain ⟨p, q, hp, hpre⟩ := inter_split hint
        rw [h5] at hp
        obtain ⟨x, y, hxy⟩ := (hk call h2).before p l a q hp
        exact ⟨x, y, (hpre _).mp hxy⟩
      · intro c' l' hs
        obtain ⟨i, hi, hin', ha, _⟩ := hstore hin
        obtain ⟨i', hi', hin'', ha', _⟩ := hstore (hmem hs)
        have hii : i' = i := Decidable.byContradiction fun hne =>
          hout i' i hin'' hin' hne (by rw [← ha, ← ha'])
        show f _ _ = f _ _
        rw [show first c' + l' = first c + l by omega]
  obtain ⟨s, hs, _, hst, hrest⟩ := run_good evs.length rfl hgood
  refine ⟨s.mem, by unfold runMem; rw [hs]; rfl, ?_, ?_⟩
  · intro i hi
    -- the call that covers element i
    have hone := honce i
    rw [if_pos hi] at hone
    have hpos : 0 < calls.countP (covers i) := by unfold timesProcessed at hone; omega
    obtain ⟨call, hcm, hcov⟩ := List.countP_pos_iff.mp hpos
    obtain ⟨c, hcl, hc⟩ := List.getElem_of_mem hcm
    have hc' : calls[c]? = some call := by rw [List.getElem?_eq_getElem hcl, hc]
    unfold covers at hcov
    simp only [Bool.and_eq_true, decide_eq_true_eq] at hcov
    have hst' := (hk call hcm).total (i - call.1) (by omega) (by omega)
    have haddr : strided (A.at call.1).po (A.at call.1).so (i - call.1) = A.po + A.so * (i : Int) := by
      rw [show (A.at call.1).po = A.po + A.so * call.1 from rfl,
        show (A.at call.1).so = A.so from rfl, strided_at, show call.1 + (i - call.1) = i by omega]
    rw [haddr] at hst'
    have hprog : (calls.map prog).getD c [] = prog call := by
      rw [List.getD_eq_getElem?_getD, List.getElem?_map, hc']; rfl
    have hev := inter_mem' hint (c := c) (by rw [hprog]; exact hst')
    rw [hst c _ _ hev]
    show f _ _ = f _ _
    have hf : first c = call.1 := by
      show (calls.getD c (0, 0)).1 = _
      rw [List.getD_eq_getElem?_getD, hc']; rfl
    rw [hf, show call.1 + (i - call.1) = i by omega]
  · intro a ha
    refine hrest a fun c l h => ?_
    obtain ⟨i, _, hin, haa, _⟩ := hstore h
    exact ha i hin haa

/-- A single kernel call. -/
theorem exec_single {f : α → α → α} {A : Args} {n : Nat} {es : List Acc} (m : Int → α)
    (hk : KernelCover f A n es)
    (hout : ∀ i j : Nat, i < n → j < n → i ≠ j → A.po + A.so * i ≠ A.po + A.so * j)
    (hsafe : KernelSeg f A n es ∧ SafeOverlap n A.p1 A.s1 A.p2 A.s2 A.po A.so ∨
        NoOverlap n A.p1 A.s1 A.p2 A.s2 A.po A.so) :
    ∃ m', runKernel f m es = some m' ∧ ElementwiseResult f n A.p1 A.s1 A.p2 A.s2 A.po A.so m m' := by
  have hA : A.at 0 = A := by cases A; simp [Args.at]
  unfold runKernel
  refine exec_calls (A := A) (n := n) (calls := [(0, n)]) (prog := fun _ => es) m ?_ ?_ ?_ hout ?_
  · intro i
    unfold timesProcessed covers
    simp [List.countP_cons]
  · intro c hc
    simp only [List.mem_singleton] at hc
    subst hc
    simpa [hA] using hk
  · intro c
    cases c with
    | zero => 
      simp only [List.map_cons, List.map_nil, List.getD_cons_zero]
      rw [List.filter_eq_self.mpr]
      · simp [Function.comp_def]
      · intro a ha
        obtain ⟨e, _, rfl⟩ := List.mem_map.mp ha
        rfl
    | succ c =>
      simp only [List.map_cons, List.map_nil, List.getD_cons_succ, List.getD_nil]
      rw [List.filter_eq_nil_iff.mpr]
      · rfl
      · intro a ha
        obtain ⟨e, _, rfl⟩ := List.mem_map.mp ha
        simp
  · rcases hsafe with ⟨h1, h2⟩ | h
    · refine Or.inl ⟨?_, h2⟩
      intro c hc
      simp only [List.mem_singleton] at hc
      subst hc
      simpa [hA] using h1
    · exact Or.inr h

end Pnumpy.Elem
