import Verif.Proofs.TsoWorkLive
import Verif.Proofs.ElementwiseRun
/-
A kernel's lane accesses as straight code: what it loads and stores, and what it leaves in memory.
-/
namespace Pnumpy.TsoWork
open Work Elem Spec
open Pnumpy.TsoCounter (Prog seqRun seqLoads seqStores)

variable {V : Type}

/-- Every address of an access is non-negative. -/
def NonNeg (es : List Elem.Acc) : Prop :=
  (∀ l x y, Elem.Acc.load l x y ∈ es → 0 ≤ x ∧ 0 ≤ y) ∧ ∀ l a, Elem.Acc.store l a ∈ es → 0 ≤ a

theorem NonNeg.tail {e : Elem.Acc} {es : List Elem.Acc} (h : NonNeg (e :: es)) : NonNeg es :=
  ⟨fun l x y hx => h.1 l x y (List.mem_cons_of_mem _ hx), fun l a hx => h.2 l a (List.mem_cons_of_mem _ hx)⟩

theorem code_loads (f : V → V → V) (es : List Elem.Acc) : ∀ (reg : Nat → Option V) (M : Nat → V) (a : Nat), a ∈ seqLoads (accCode f reg es) M →
    ∃ l x y, Elem.Acc.load l x y ∈ es ∧ (a = x.toNat ∨ a = y.toNat) := by
  induction es with
  | nil => intro reg M a h; cases h
  | cons e es ih =>
    intro reg M a h
    cases e with
    | load l x y =>
      simp only [accCode, seqLoads, List.mem_cons] at h
      rcases h with h | h | h
      · exact ⟨l, x, y, List.mem_cons_self, Or.inl h⟩
      · exact ⟨l, x, y, List.mem_cons_self, Or.inr h⟩
      · obtain ⟨l', x', y', h1, h2⟩ := ih _ _ _ h
        exact ⟨l', x', y', List.mem_cons_of_mem _ h1, h2⟩
    | store l b =>
      simp only [accCode] at h
      cases hr : reg l with
      | none => rw [hr] at h; cases h
      | some v =>
        rw [hr] at h
        obtain ⟨l', x', y', h1, h2⟩ := ih _ _ _ h
        exact ⟨l', x', y', List.mem_cons_of_mem _ h1, h2⟩

theorem code_stores (f : V → V → V) (es : List Elem.Acc) : ∀ (reg : Nat → Option V) (M : Nat → V) (a : Nat) (v : V), (a, v) ∈ seqStores (accCode f reg es) M →
    ∃ l b, Elem.Acc.store l b ∈ es ∧ a = b.toNat := by
  induction es with
  | nil => intro reg M a v h; cases h
  | cons e es ih =>
    intro reg M a v h
    cases e with
    | load l x y =>
      simp only [accCode, seqStores] at h
      obtain ⟨l', b, h1, h2⟩ := ih _ _ _ _ h
      exact ⟨l', b, List.mem_cons_of_mem _ h1, h2⟩
    | store l b =>
      simp only [accCode] at h
      cases hr : reg l with
      | none => rw [hr] at h; cases h
      | some v' =>
        rw [hr] at h
        simp only [seqStores, List.mem_cons, Prod.mk.injEq] at h
        rcases h with h | h
        · exact ⟨l, b, List.mem_cons_self, h.1⟩
        · obtain ⟨l', b', h1, h2⟩ := ih _ _ _ _ h
          exact ⟨l', b', List.mem_cons_of_mem _ h1, h2⟩

/-- The memory and registers of call 0 agree with those of the code. -/
def Agree (s : MState V) (reg : Nat → Option V) (M : Nat → V) : Prop := (∀ a : Nat, M a = s.mem a) ∧ ∀ l, reg l = s.reg 0 l

theorem agree_load {s : MState V} {reg : Nat → Option V} {M : Nat → V} (h : Agree s reg M) {x y : Int} (hx : 0 ≤ x) (hy : 0 ≤ y) (f : V → V → V) (l : Nat) :
    Agree { s with reg := fun c' l' => if c' = 0 ∧ l' = l then some (f (s.mem x) (s.mem y)) else s.reg c' l' } (upd reg l (some (f (M x.toNat) (M y.toNat)))) M := by
  refine ⟨h.1, fun l' => ?_⟩
  rw [h.1, h.1, Int.toNat_of_nonneg hx, Int.toNat_of_nonneg hy]
  by_cases hl : l' = l
  · subst hl; simp [upd]
  · simp [upd, hl, h.2]

theorem agree_store {s : MState V} {reg : Nat → Option V} {M : Nat → V} (h : Agree s reg M) {a : Int} (ha : 0 ≤ a) (v : V) :
    Agree { s with mem := fun a' => if a' = a then v else s.mem a' } reg (fun x => if x = a.toNat then v else M x) := by
  refine ⟨fun x => ?_, h.2⟩
  by_cases hx : x = a.toNat
  · have : (x : Int) = a := by rw [hx]; exact Int.toNat_of_nonneg ha
    simp only [if_pos hx, if_pos this]
  · have : ¬ (x : Int) = a := by omega
    simp only [if_neg hx, if_neg this]; exact h.1 x

theorem code_run (f : V → V → V) (es : List Elem.Acc) : ∀ (s s' : MState V) (reg : Nat → Option V) (M : Nat → V), NonNeg es → Agree s reg M →
    run f s (es.map fun e => (0, e)) = some s' → ∀ a : Nat, seqRun (accCode f reg es) M a = s'.mem a := by
  induction es with
  | nil =>
    intro s s' reg M _ h hr a
    simp only [List.map_nil, run, Option.some.injEq] at hr
    subst hr
    exact h.1 a
  | cons e es ih =>
    intro s s' reg M hn h hr a
    simp only [List.map_cons, run] at hr
    cases e with
    | load l x y =>
      obtain ⟨hx, hy⟩ := hn.1 l x y List.mem_cons_self
      simp only [stepAcc, Option.bind_some] at hr
      simp only [accCode, seqRun]
      exact ih _ s' _ M hn.tail (agree_load h hx hy f l) hr a
    | store l b =>
      have hb := hn.2 l b List.mem_cons_self
      simp only [stepAcc] at hr
      simp only [accCode, h.2 l]
      cases hv : s.reg 0 l with
      | none => rw [hv] at hr; simp at hr
      | some v =>
        rw [hv] at hr
        simp only [Option.bind_some] at hr
        simp only [seqRun]
        exact ih _ s' _ _ hn.tail (agree_store h hb v) hr a

/-- What the code stores to a cell is what the accesses up to that store leave there. -/
theorem code_store_value (f : V → V → V) (es : List Elem.Acc) : ∀ (s : MState V) (reg : Nat → Option V) (M : Nat → V), NonNeg es → Agree s reg M →
    ∀ (a : Nat) (v : V), (a, v) ∈ seqStores (accCode f reg es) M →
    ∃ pre l b post s', es = pre ++ Elem.Acc.store l b :: post ∧ a = b.toNat ∧
      run f s ((pre ++ [Elem.Acc.store l b]).map fun e => (0, e)) = some s' ∧ s'.mem b = v := by
  induction es with
  | nil => intro s reg M _ _ a v h; cases h
  | cons e es ih =>
    intro s reg M hn h a v hs
    cases e with
    | load l x y =>
      obtain ⟨hx, hy⟩ := hn.1 l x y List.mem_cons_self
      simp only [accCode, seqStores] at hs
      obtain ⟨pre, l', b, post, s', h1, h2, h3, h4⟩ := ih _ _ M hn.tail (agree_load h hx hy f l) a v hs
      refine ⟨.load l x y :: pre, l', b, post, s', by rw [h1]; rfl, h2, ?_, h4⟩
      simp only [List.cons_append, List.map_cons, run, stepAcc, Option.bind_some]
      exact h3
    | store l b =>
      have hb := hn.2 l b List.mem_cons_self
      simp only [accCode, h.2 l] at hs
      cases hv : s.reg 0 l with
      | none => rw [hv] at hs; cases hs
      | some w =>
        rw [hv] at hs
        simp only [seqStores, List.mem_cons, Prod.mk.injEq] at hs
        rcases hs with ⟨h1, h2⟩ | hs
        · refine ⟨[], l, b, es, { s with mem := fun a' => if a' = b then w else s.mem a' }, rfl, h1, ?_, ?_⟩
          · simp only [List.nil_append, List.map_cons, List.map_nil, run, stepAcc, hv, Option.bind_some]
          · simp [h2]
        · obtain ⟨pre, l', b', post, s', h1, h2, h3, h4⟩ := ih _ _ _ hn.tail (agree_store h hb w) a v hs
          refine ⟨.store l b :: pre, l', b', post, s', by rw [h1]; rfl, h2, ?_, h4⟩
          simp only [List.cons_append, List.map_cons, run, stepAcc, hv, Option.bind_some]
          exact h3

/-- The accesses of one kernel call are in order: every load sees the inputs as they were, every store puts down the lane's result. -/
theorem single_good {f : V → V → V} {A : Args} {n : Nat} {es : List Elem.Acc} (m : Int → V)
    (hk : KernelCover f A n es)
    (hout : ∀ i j : Nat, i < n → j < n → i ≠ j → A.po + A.so * i ≠ A.po + A.so * j)
    (hsafe : KernelSeg f A n es ∧ SafeOverlap n A.p1 A.s1 A.p2 A.s2 A.po A.so ∨ NoOverlap n A.p1 A.s1 A.p2 A.s2 A.po A.so) :
    GoodRun f m (fun _ l => f (m (strided A.p1 A.s1 l)) (m (strided A.p2 A.s2 l))) (es.map fun e => (0, e)) := by
  intro pre c e post he
  obtain ⟨pre', q, rfl, rfl, hq⟩ := List.map_eq_append_iff.1 he
  obtain ⟨e', post', rfl, he', rfl⟩ := List.map_eq_cons_iff.1 hq
  obtain ⟨rfl, rfl⟩ := Prod.mk.inj he'
  have hin : e' ∈ pre' ++ e' :: post' := by simp
  have hmem : ∀ {c x}, (c, x) ∈ pre'.map (fun e => ((0 : Nat), e)) → c = 0 ∧ x ∈ pre' := by
    intro c x hx
    obtain ⟨y, h1, h2⟩ := List.mem_map.1 hx
    cases h2
    exact ⟨rfl, h1⟩
  cases e' with
  | load l x y =>
    simp only
    obtain ⟨k1, k2, k3⟩ := hk.loads l x y hin
    refine ⟨k1 m, ?_⟩
    intro c' l' a hs
    obtain ⟨_, hs⟩ := hmem hs
    have hs' : Elem.Acc.store l' a ∈ pre' ++ Elem.Acc.load l x y :: post' := List.mem_append.2 (Or.inl hs)
    have ha := hk.stores l' a hs'
    have hl := (hk.bound _ hin).2
    have hl' := (hk.bound _ hs').2
    simp only [Acc.lane] at hl hl'
    unfold strided at ha k2 k3
    rcases hsafe with ⟨hseg, hsf⟩ | hno
    · have hne : l' ≠ l := fun e => by subst e; exact hseg.fresh pre' l' x y post' rfl a hs
      have := hsf l' l hl' hl hne
      rw [ha]
      exact ⟨k2.elim (fun e => by rw [e]; exact this.2.1) (fun e => by rw [e]; exact this.2.2), k3.elim (fun e => by rw [e]; exact this.2.1) (fun e => by rw [e]; exact this.2.2)⟩
    · have := hno l' l hl' hl
      rw [ha]
      exact ⟨k2.elim (fun e => by rw [e]; exact this.2.1) (fun e => by rw [e]; exact this.2.2), k3.elim (fun e => by rw [e]; exact this.2.1) (fun e => by rw [e]; exact this.2.2)⟩
  | store l a =>
    simp only
    obtain ⟨x, y, hxy⟩ := hk.before pre' l a post' rfl
    refine ⟨⟨x, y, List.mem_map.2 ⟨_, hxy, rfl⟩⟩, ?_⟩
    intro c' l' hs
    obtain ⟨_, hs⟩ := hmem hs
    have hs' : Elem.Acc.store l' a ∈ pre' ++ Elem.Acc.store l a :: post' := List.mem_append.2 (Or.inl hs)
    have h1 := hk.stores l a hin
    have h2 := hk.stores l' a hs'
    have hl := (hk.bound _ hin).2
    have hl' := (hk.bound _ hs').2
    simp only [Acc.lane] at hl hl'
    have : l' = l := Decidable.byContradiction fun hne => hout l' l hl' hl hne (by unfold strided at h1 h2; rw [← h1, ← h2])
    rw [this]

end Pnumpy.TsoWork
