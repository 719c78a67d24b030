import Verif.Proofs.ElementwiseKernels
import Verif.Model.Trig
/- Running kernel calls whose function depends on the call and the position (a copy of the proofs for `Elem.run`). -/
namespace Pnumpy.Elem
open Pnumpy.Spec

/-- `stepAcc` with a function depending on the call and the lane. -/
def stepAccL {α : Type} (F : Nat → Nat → α → α → α) (s : MState α) (c : Nat) (e : Acc) : Option (MState α) :=
  stepAcc (F c e.lane) s c e

def runL {α : Type} (F : Nat → Nat → α → α → α) : MState α → List (Nat × Acc) → Option (MState α)
  | s, [] => some s
  | s, (c, e) :: es => (stepAccL F s c e).bind fun s' => runL F s' es

/-- Every access is in order: loads read original data, stores have a loaded register, and two stores
to one address carry the same value. -/
def GoodRunL {α : Type} (F : Nat → Nat → α → α → α) (m0 : Int → α) (V : Nat → Nat → α)
    (evs : List (Nat × Acc)) : Prop :=
  ∀ pre c e post, evs = pre ++ (c, e) :: post →
    match e with
    | .load l x y => F c l (m0 x) (m0 y) = V c l ∧
        ∀ c' l' a, (c', Acc.store l' a) ∈ pre → a ≠ x ∧ a ≠ y
    | .store l a => (∃ x y, (c, Acc.load l x y) ∈ pre) ∧
        ∀ c' l', (c', Acc.store l' a) ∈ pre → V c' l' = V c l

theorem runL_append {α : Type} (F : Nat → Nat → α → α → α) (s : MState α) (xs ys : List (Nat × Acc)) :
    runL F s (xs ++ ys) = (runL F s xs).bind fun s' => runL F s' ys := by
  induction xs generalizing s with
  | nil => rfl
  | cons x xs ih =>
    obtain ⟨c, e⟩ := x
    simp only [List.cons_append, runL]
    cases stepAccL F s c e with
    | none => rfl
    | some s' => simp only [Option.bind_some]; exact ih s'

theorem GoodRunL.prefix {α : Type} {F : Nat → Nat → α → α → α} {m0 : Int → α} {V : Nat → Nat → α}
    {xs ys : List (Nat × Acc)} (h : GoodRunL F m0 V (xs ++ ys)) : GoodRunL F m0 V xs := by
  intro pre c e post he
  exact h pre c e (post ++ ys) (by rw [he]; simp)

theorem runL_good {α : Type} {F : Nat → Nat → α → α → α} {m0 : Int → α} {V : Nat → Nat → α}
    (n : Nat) : ∀ {evs : List (Nat × Acc)}, evs.length = n → GoodRunL F m0 V evs →
    ∃ s, runL F ⟨m0, fun _ _ => none⟩ evs = some s ∧
      (∀ c l x y, (c, Acc.load l x y) ∈ evs → s.reg c l = some (V c l)) ∧
      (∀ c l a, (c, Acc.store l a) ∈ evs → s.mem a = V c l) ∧
      (∀ a, (∀ c l, (c, Acc.store l a) ∉ evs) → s.mem a = m0 a) := by
  induction n with
  | zero =>
    intro evs hlen _
    have : evs = [] := List.length_eq_zero_iff.mp hlen
    subst this
    exact ⟨_, rfl, by simp, by simp, by simp⟩
  | succ n ih =>
    intro evs hlen hg
    have hne : evs ≠ [] := by intro h; simp [h] at hlen
    obtain ⟨pre, last, rfl⟩ : ∃ pre last, evs = pre ++ [last] :=
      ⟨evs.dropLast, evs.getLast hne, (List.dropLast_concat_getLast hne).symm⟩
    obtain ⟨c, e⟩ := last
    obtain ⟨s, hs, hreg, hmem, hrest⟩ := ih (by simpa using hlen) hg.prefix
    have hlast := hg pre c e [] rfl
    cases e with
    | load l x y =>
      simp only at hlast
      obtain ⟨hv, hfresh⟩ := hlast
      have hx : s.mem x = m0 x := hrest x fun c' l' h => (hfresh c' l' x h).1 rfl
      have hy : s.mem y = m0 y := hrest y fun c' l' h => (hfresh c' l' y h).2 rfl
      refine ⟨_, by rw [runL_append, hs]; rfl, ?_, ?_, ?_⟩
      · intro c' l' x' y' hin
        rw [List.mem_append, List.mem_singleton] at hin
        by_cases hk : c' = c ∧ l' = l
        · obtain ⟨rfl, rfl⟩ := hk
          simp [Acc.lane, hx, hy, hv]
        · simp only [if_neg hk]
          rcases hin with hin | hin
          · exact hreg c' l' x' y' hin
          · simp only [Prod.mk.injEq, Acc.load.injEq] at hin
            exact absurd ⟨hin.1, hin.2.1⟩ hk
      · intro c' l' a hin
        rw [List.mem_append, List.mem_singleton] at hin
        rcases hin with hin | hin
        · exact hmem c' l' a hin
        · simp at hin
      · intro a ha
        exact hrest a fun c' l' h => ha c' l' (by simp [h])
    | store l a =>
      simp only at hlast
      obtain ⟨⟨x, y, hl⟩, hsame⟩ := hlast
      have hr := hreg c l x y hl
      refine ⟨{ s with mem := fun a' => if a' = a then V c l else s.mem a' },
        by rw [runL_append, hs]; simp [runL, stepAccL, stepAcc, hr], ?_, ?_, ?_⟩
      · intro c' l' x' y' hin
        rw [List.mem_append, List.mem_singleton] at hin
        rcases hin with hin | hin
        · exact hreg c' l' x' y' hin
        · simp at hin
      · intro c' l' a' hin
        rw [List.mem_append, List.mem_singleton] at hin
        show (if a' = a then V c l else s.mem a') = _
        rcases hin with hin | hin
        · split
          · rename_i h; subst h; exact (hsame c' l' hin).symm
          · exact hmem c' l' a' hin
        · simp only [Prod.mk.injEq, Acc.store.injEq] at hin
          obtain ⟨rfl, rfl, rfl⟩ := hin
          simp
      · intro a' ha
        show (if a' = a then V c l else s.mem a') = _
        have hne' : a' ≠ a := by
          intro h; subst h
          exact ha c l (by simp)
        rw [if_neg hne']
        exact hrest a' fun c' l' h => ha c' l' (by simp [h])

variable {α : Type}

/-- What is needed of the accesses of all calls for the final memory to be right. -/
theorem exec_callsL {F : Nat → Nat → α → α → α} {G : Nat → α → α} {A : Args} {n : Nat} {calls : List (Nat × Nat)}
    {prog : Nat × Nat → List Acc} {evs : List (Nat × Acc)} (m : Int → α)
    (honce : ExactlyOnce n calls)
    (hk : ∀ c ∈ calls, KernelCover (fun (x _ : α) => x) (A.at c.1) c.2 (prog c))
    (hF : ∀ c call, calls[c]? = some call → ∀ l, l < call.2 → ∀ x y, F c l x y = G (call.1 + l) x)
    (hint : Interleaving (calls.map prog) evs)
    (hout : ∀ i j : Nat, i < n → j < n → i ≠ j → A.po + A.so * i ≠ A.po + A.so * j)
    (hsafe : (∀ c ∈ calls, KernelSeg (fun (x _ : α) => x) (A.at c.1) c.2 (prog c)) ∧
        SafeOverlap n A.p1 A.s1 A.p2 A.s2 A.po A.so ∨
        NoOverlap n A.p1 A.s1 A.p2 A.s2 A.po A.so) :
    ∃ s, runL F ⟨m, fun _ _ => none⟩ evs = some s ∧
      (∀ i : Nat, i < n → s.mem (A.po + A.so * i) = G i (m (A.p1 + A.s1 * i))) ∧
      (∀ a : Int, (∀ i : Nat, i < n → a ≠ A.po + A.so * i) → s.mem a = m a) := by
  let first : Nat → Nat := fun c => (calls.getD c (0, 0)).1
  let V : Nat → Nat → α := fun c l =>
    G (first c + l) (m (A.p1 + A.s1 * ((first c + l : Nat) : Int)))
  -- every access belongs to some call
  have hcall : ∀ {c e}, e ∈ (calls.map prog).getD c [] →
      ∃ call, calls[c]? = some call ∧ call ∈ calls ∧ e ∈ prog call ∧ first c = call.1 ∧
        (calls.map prog).getD c [] = prog call := by
    intro c e he
    rw [List.getD_eq_getElem?_getD, List.getElem?_map] at he ⊢
    cases hc : calls[c]? with
    | none => rw [hc] at he; simp at he
    | some call =>
      rw [hc] at he
      refine ⟨call, rfl, List.mem_of_getElem? hc, by simpa using he, ?_, by simp⟩
      show (calls.getD c (0, 0)).1 = _
      rw [List.getD_eq_getElem?_getD, hc]; rfl
  have hlt : ∀ {c : Nat} {call : Nat × Nat} {l : Nat}, calls[c]? = some call → l < call.2 →
      call.1 + l < n ∧ covers (call.1 + l) call = true := by
    intro c call l hc hl
    have hcov : covers (call.1 + l) call = true := by
      unfold covers; simp only [Bool.and_eq_true, decide_eq_true_eq]; omega
    refine ⟨?_, hcov⟩
    have h1 := honce (call.1 + l)
    have h2 : 0 < timesProcessed calls (call.1 + l) :=
      List.countP_pos_iff.mpr ⟨call, List.mem_of_getElem? hc, hcov⟩
    rw [h1] at h2
    split at h2
    · assumption
    · omega
  -- description of an access
  have hstore : ∀ {c l a}, (c, Acc.store l a) ∈ evs →
      ∃ i : Nat, i = first c + l ∧ i < n ∧ a = A.po + A.so * (i : Int) ∧
        ∃ call, calls[c]? = some call ∧ first c = call.1 ∧ l < call.2 := by
    intro c l a h
    obtain ⟨call, h1, h2, h3, h4, _⟩ := hcall (inter_mem hint h)
    have hb := ((hk call h2).bound _ h3).2
    have ha := (hk call h2).stores l a h3
    refine ⟨first c + l, rfl, ?_, ?_, call, h1, h4, hb⟩
    · rw [h4]; exact (hlt h1 hb).1
    · rw [ha, h4]; exact strided_at A.po A.so call.1 l
  have hload : ∀ {c l x y}, (c, Acc.load l x y) ∈ evs →
      F c l (m x) (m y) = V c l ∧ ∃ i : Nat, i = first c + l ∧ i < n ∧
        (x = A.p1 + A.s1 * (i : Int) ∨ x = A.p2 + A.s2 * (i : Int)) ∧
        (y = A.p1 + A.s1 * (i : Int) ∨ y = A.p2 + A.s2 * (i : Int)) ∧
        ∃ call, calls[c]? = some call ∧ first c = call.1 ∧ l < call.2 := by
    intro c l x y h
    obtain ⟨call, h1, h2, h3, h4, _⟩ := hcall (inter_mem hint h)
    have hb := ((hk call h2).bound _ h3).2
    obtain ⟨k1, k2, k3⟩ := (hk call h2).loads l x y h3
    have e1 : strided (A.at call.1).p1 (A.at call.1).s1 l =
        A.p1 + A.s1 * ((first c + l : Nat) : Int) := by rw [h4]; exact strided_at A.p1 A.s1 call.1 l
    have e2 : strided (A.at call.1).p2 (A.at call.1).s2 l =
        A.p2 + A.s2 * ((first c + l : Nat) : Int) := by rw [h4]; exact strided_at A.p2 A.s2 call.1 l
    rw [e1, e2] at k1 k2 k3
    exact ⟨by rw [hF c call h1 l hb, show m x = _ from k1 m, ← h4], first c + l, rfl, by rw [h4]; exact (hlt h1 hb).1, k2, k3, call, h1, h4, hb⟩
  have hgood : GoodRunL F m V evs := by
    intro pre c e post he
    have hmem : ∀ {x}, x ∈ pre → x ∈ evs := by intro x hx; rw [he]; simp [hx]
    have hin : (c, e) ∈ evs := by rw [he]; simp
    cases e with
    | load l x y =>
      simp only
      obtain ⟨hv, i, hi, hin', hx, hy, call, hc, hf, hl⟩ := hload hin
      refine ⟨hv, ?_⟩
      intro c' l' a hs
      obtain ⟨i', hi', hin'', ha, call', hc', hf', hl'⟩ := hstore (hmem hs)
      rcases hsafe with ⟨hseg, hsafe⟩ | hno
      · by_cases hii : i' = i
        · -- same element: same call and lane, but the lane was not stored before
          exfalso
          have hcov := (hlt hc hl).2
          have hcov' := (hlt hc' hl').2
          rw [← hf, ← hi] at hcov
          rw [← hf', ← hi', hii] at hcov'
          have hone : calls.countP (covers i) ≤ 1 := by
            have := honce i
            unfold timesProcessed at this
            rw [this]; split <;> omega
          have hcc : c' = c := countP_unique hone hc' hc hcov' hcov
          subst hcc
          have hll : l' = l := by omega
          subst hll
          rw [he] at hint
          obtain ⟨p, q, hp, hpre⟩ := inter_split hint
          have hmemc : call ∈ calls := List.mem_of_getElem? hc
          have hprog : (calls.map prog).getD c' [] = prog call := by
            rw [List.getD_eq_getElem?_getD, List.getElem?_map, hc]; rfl
          rw [hprog] at hp
          exact (hseg call hmemc).fresh p l' x y q hp a ((hpre _).mpr hs)
        · have := hsafe i' i hin'' hin' hii
          rw [ha]
          constructor
          · rcases hx with hx | hx <;> rw [hx]
            · exact this.2.1
            · exact this.2.2
          · rcases hy with hy | hy <;> rw [hy]
            · exact this.2.1
            · exact this.2.2
      · have := hno i' i hin'' hin'
        rw [ha]
        constructor
        · rcases hx with hx | hx <;> rw [hx]
          · exact this.2.1
          · exact this.2.2
        · rcases hy with hy | hy <;> rw [hy]
          · exact this.2.1
          · exact this.2.2
    | store l a =>
      simp only
      constructor
      · obtain ⟨call, h1, h2, h3, h4, h5⟩ := hcall (inter_mem hint hin)
        rw [he] at hint
        obtain ⟨p, q, hp, hpre⟩ := inter_split hint
        rw [h5] at hp
        obtain ⟨x, y, hxy⟩ := (hk call h2).before p l a q hp
        exact ⟨x, y, (hpre _).mp hxy⟩
      · intro c' l' hs
        obtain ⟨i, hi, hin', ha, _⟩ := hstore hin
        obtain ⟨i', hi', hin'', ha', _⟩ := hstore (hmem hs)
        have hii : i' = i := Decidable.byContradiction fun hne =>
          hout i' i hin'' hin' hne (by rw [← ha, ← ha'])
        show G _ _ = G _ _
        rw [show first c' + l' = first c + l by omega]
  obtain ⟨s, hs, _, hst, hrest⟩ := runL_good evs.length rfl hgood
  refine ⟨s, hs, ?_, ?_⟩
  · intro i hi
    -- the call that covers element i
    have hone := honce i
    rw [if_pos hi] at hone
    have hpos : 0 < calls.countP (covers i) := by unfold timesProcessed at hone; omega
    obtain ⟨call, hcm, hcov⟩ := List.countP_pos_iff.mp hpos
    obtain ⟨c, hcl, hc⟩ := List.getElem_of_mem hcm
    have hc' : calls[c]? = some call := by rw [List.getElem?_eq_getElem hcl, hc]
    unfold covers at hcov
    simp only [Bool.and_eq_true, decide_eq_true_eq] at hcov
    have hst' := (hk call hcm).total (i - call.1) (by omega) (by omega)
    have haddr : strided (A.at call.1).po (A.at call.1).so (i - call.1) = A.po + A.so * (i : Int) := by
      rw [show (A.at call.1).po = A.po + A.so * call.1 from rfl,
        show (A.at call.1).so = A.so from rfl, strided_at, show call.1 + (i - call.1) = i by omega]
    rw [haddr] at hst'
    have hprog : (calls.map prog).getD c [] = prog call := by
      rw [List.getD_eq_getElem?_getD, List.getElem?_map, hc']; rfl
    have hev := inter_mem' hint (c := c) (by rw [hprog]; exact hst')
    rw [hst c _ _ hev]
    show G _ _ = G _ _
    have hf : first c = call.1 := by
      show (calls.getD c (0, 0)).1 = _
      rw [List.getD_eq_getElem?_getD, hc']; rfl
    rw [hf, show call.1 + (i - call.1) = i by omega]
  · intro a ha
    refine hrest a fun c l h => ?_
    obtain ⟨i, _, hin, haa, _⟩ := hstore h
    exact ha i hin haa

end Pnumpy.Elem
