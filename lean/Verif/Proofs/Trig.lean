import Verif.Proofs.Lanes
import Verif.Spec.Trig
import Verif.Props.Dispatch
/- The marked accesses of the sin/cos/exp/log kernels. -/
namespace Pnumpy.Trig
open Pnumpy.Spec Pnumpy.Elem Pnumpy.Dispatch

variable {α : Type}

theorem trigProg_erase (size : Nat) (p s po so : Int) (n : Nat) :
    (trigProg size p s po so n).map (·.2) = unaryOpFast size p s po so n := by
  unfold trigProg unaryOpFast
  simp only
  split <;> simp [Function.comp_def]

theorem lane_scalarLoop {a1 a2 o : Nat → Int} {st cnt : Nat} {e : Acc} (h : e ∈ scalarLoop a1 a2 o st cnt) :
    st ≤ e.lane ∧ e.lane < st + cnt := by
  exact (seg_scalarLoop (P := fun _ _ _ => True) (a1 := a1) (a2 := a2) (o := o) st cnt (fun _ _ _ => trivial)).bound e h

theorem lane_unarySlow {a o : Nat → Int} {so : Int} {n q : Nat} {e : Acc} (h : e ∈ unarySlow a o so n q) : q ≤ e.lane := by
  unfold unarySlow at h
  split at h
  · cases h
  · exact (lane_scalarLoop h).1

/-- The vector loop makes exactly the accesses of the lanes in vector positions. -/
theorem mark_lane {size : Nat} (hs : size = 4 ∨ size = 8) {p s po so : Int} {n : Nat} {b : Bool} {e : Acc}
    (h : (b, e) ∈ trigProg size p s po so n) : b = decide (VectorPosition size s so n e.lane) := by
  have hw : 0 < 32 / size := by rcases hs with rfl | rfl <;> decide
  have hmod : ∀ n, 32 / size * (n / (32 / size)) = n - n % (32 / size) := by
    intro n; have := Nat.div_add_mod n (32 / size); omega
  suffices hb : b = true ↔ (s = size ∧ so = size ∧ e.lane < 32 / size * (n / (32 / size))) by
    rw [hmod] at hb
    rw [Bool.eq_iff_iff, decide_eq_true_eq]
    exact hb
  unfold trigProg at h
  simp only at h
  split at h
  · rename_i hc
    have hpos : 0 < 32 / size * (n / (32 / size)) := Nat.mul_pos hw (Nat.div_pos hc.2.2 hw)
    obtain ⟨e1, e2⟩ := seg_vecDo (P := fun _ _ _ => True) (a1 := strided p size) (a2 := strided p size) (o := strided po size)
      hw (32 / size * (n / (32 / size))) 0 (by rw [Nat.sub_zero]; exact Nat.dvd_mul_right _ _) hpos (fun _ _ _ => trivial)
    rw [e1] at h
    rcases List.mem_append.mp h with h | h
    · obtain ⟨e', he, hee⟩ := List.mem_map.mp h
      cases hee
      exact ⟨fun _ => ⟨hc.2.1.symm, hc.1.symm, (e2.bound _ he).2⟩, fun _ => rfl⟩
    · obtain ⟨e', he, hee⟩ := List.mem_map.mp h
      cases hee
      refine ⟨fun h => (by cases h), fun hv => ?_⟩
      exfalso
      have := lane_unarySlow he
      omega
  · rename_i hc
    obtain ⟨e', he, hee⟩ := List.mem_map.mp h
    cases hee
    refine ⟨fun h => (by cases h), fun hv => ?_⟩
    refine absurd ?_ hc
    refine ⟨hv.2.1.symm, hv.1.symm, ?_⟩
    rcases Nat.lt_or_ge n (32 / size) with hlt | hge
    · have := hv.2.2
      rw [Nat.div_eq_of_lt hlt] at this
      omega
    · exact hge

theorem runM_runL (f : Bool → α → α) (mark : Nat → Nat → Bool) : ∀ (evs : List (Nat × MAcc)) (st : MState α),
    (∀ c b e, (c, (b, e)) ∈ evs → b = mark c e.lane) →
    runM f st evs = runL (fun c l x _ => f (mark c l) x) st (evs.map fun a => (a.1, a.2.2))
  | [], _, _ => rfl
  | (c, (b, e)) :: evs, st, h => by
    have hb := h c b e (by simp)
    simp only [runM, List.map_cons, runL, stepM, stepAccL]
    rw [hb]
    cases stepAcc (fun x _ => f (mark c e.lane) x) st c e with
    | none => rfl
    | some st' =>
      simp only [Option.bind_some]
      exact runM_runL f mark evs st' fun c' b' e' h' => h c' b' e' (by simp [h'])

theorem erase_inter {progs : List (List MAcc)} {evs : List (Nat × MAcc)} (h : InterleavingM progs evs) :
    Interleaving (progs.map fun p => p.map (·.2)) (evs.map fun a => (a.1, a.2.2)) := by
  intro c
  have := congrArg (List.map (·.2)) (h c)
  rw [List.filter_map, List.map_map]
  rw [List.map_map] at this
  rw [show ((fun e : Nat × Acc => e.1 == c) ∘ fun a : Nat × MAcc => (a.1, a.2.2)) = (fun e => e.1 == c) from rfl]
  refine Eq.trans this ?_
  simp only [List.getD_eq_getElem?_getD, List.getElem?_map]
  cases progs[c]? <;> rfl

theorem interM_mem {progs : List (List MAcc)} {evs : List (Nat × MAcc)} (h : InterleavingM progs evs)
    {c : Nat} {e : MAcc} (he : (c, e) ∈ evs) : e ∈ progs.getD c [] := by
  rw [← h c]
  exact List.mem_map.mpr ⟨(c, e), List.mem_filter.mpr ⟨he, by simp⟩, rfl⟩

/-- Calls on consecutive parts, each starting at a multiple of the vector width, put every element into the position class it has in the whole. -/
theorem calls_result {size : Nat} (hs : size = 4 ∨ size = 8) (f : Bool → α → α) (p s po so : Int) (hso : so ≠ 0) (n : Nat)
    (calls : List (Nat × Nat)) (honce : ExactlyOnce n calls)
    (hpos : ∀ c ∈ calls, ∀ l, l < c.2 → (VectorPosition size s so c.2 l ↔ VectorPosition size s so n (c.1 + l)))
    (hsafe : SafeOverlap n p s p s po so) (m : Int → α) (evs : List (Nat × MAcc))
    (hint : InterleavingM (calls.map fun c => trigProg size (p + s * c.1) s (po + so * c.1) so c.2) evs) :
    ∃ m', runMemM f m evs = some m' ∧
      MapResult (fun i => f (decide (VectorPosition size s so n i))) n p s po so m m' := by
  let A : Args := ⟨p, s, p, s, po, so⟩
  let mark : Nat → Nat → Bool := fun c l => decide (VectorPosition size s so (calls.getD c (0, 0)).2 l)
  have hmark : ∀ c b e, (c, (b, e)) ∈ evs → b = mark c e.lane := by
    intro c b e he
    have := interM_mem hint he
    rw [List.getD_eq_getElem?_getD, List.getElem?_map] at this
    show b = decide (VectorPosition size s so (calls.getD c (0, 0)).2 e.lane)
    rw [List.getD_eq_getElem?_getD]
    cases hc : calls[c]? with
    | none => rw [hc] at this; simp at this
    | some call => rw [hc] at this; exact mark_lane hs this
  have hi := erase_inter hint
  rw [List.map_map] at hi
  have hseg : ∀ c ∈ calls, KernelSeg (fun (x _ : α) => x) (A.at c.1) c.2
      ((trigProg size (p + s * c.1) s (po + so * c.1) so c.2).map (fun e : MAcc => e.2)) := by
    intro c _
    rw [trigProg_erase]
    exact seg_unaryFast (A := A.at c.1) (by rcases hs with h | h <;> simp [h]) hso ⟨rfl, rfl⟩ c.2
  obtain ⟨st, r1, r2, r3⟩ := exec_callsL (F := fun c l x _ => f (mark c l) x)
    (G := fun i => f (decide (VectorPosition size s so n i))) (A := A) (n := n) (calls := calls)
    (prog := fun c => (trigProg size (p + s * c.1) s (po + so * c.1) so c.2).map (fun e : MAcc => e.2)) m honce
    (fun c hc => (hseg c hc).toCover)
    (by
      intro c call hc l hl x _
      show f (decide (VectorPosition size s so (calls.getD c (0, 0)).2 l)) x = _
      rw [List.getD_eq_getElem?_getD, hc]
      show f (decide (VectorPosition size s so call.2 l)) x = _
      rw [decide_eq_decide.mpr (hpos call (List.mem_of_getElem? hc) l hl)])
    hi (fun i j h1 h2 h3 => (hsafe i j h1 h2 h3).1) (Or.inl ⟨hseg, hsafe⟩)
  refine ⟨st.mem, ?_, r2, r3⟩
  unfold runMemM
  rw [runM_runL f mark evs _ hmark, r1]
  rfl

end Pnumpy.Trig
