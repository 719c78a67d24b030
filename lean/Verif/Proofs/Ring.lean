import Verif.Model.Ring
namespace Pnumpy.Ring
open Pnumpy.Work (upd)

structure Inv (s : St) : Prop where
  idle : s.caller = .idle → s.poolIdx = s.mainIdx ∧ s.poolDone = s.mainIdx
  taken : s.caller = .taken ∨ s.caller = .filled → s.poolIdx + 1 = s.mainIdx ∧ s.poolDone + 1 = s.mainIdx
  pub : s.caller = .published → s.poolIdx = s.mainIdx ∧ s.poolDone + 1 = s.mainIdx
  slot : (s.caller = .idle ∧ 0 < s.mainIdx ∨ s.caller = .filled ∨ s.caller = .published) →
    s.slot (s.mainIdx % RING) = s.mainIdx
  cmp : ∀ w wi e, s.worker w = .cmp wi e → wi ≤ s.poolIdx ∧ e ≤ s.poolDone ∧ (wi = e ∨ wi = e + 1)
  get : ∀ w e, s.worker w = .get e → e ≤ s.poolDone ∧ e + 1 ≤ s.poolIdx
  runs : ∀ r ∈ s.runs, r.epoch = r.doneNow → r.pub = true ∧ r.call = r.main ∧ 0 < r.main

theorem inv_init : Inv init := by
  constructor <;> simp [init]

theorem inv_step {s : St} (h : Inv s) (a : Act) : Inv (step s a) := by
  obtain ⟨h1, h2, h3, h4, h5, h6, h7⟩ := h
  cases a with
  | caller =>
    match hc : s.caller with
    | .idle =>
      have := h1 hc
      simp only [step, hc]
      constructor <;> simp <;> first
        | omega
        | exact h7
        | (intro w wi e hw; have := h5 w wi e hw; omega)
        | (intro w e hw; have := h6 w e hw; omega)
    | .taken =>
      have := h2 (Or.inl hc)
      simp only [step, hc]
      constructor <;> simp [upd] <;> first
        | omega
        | exact h7
        | (intro w wi e hw; have := h5 w wi e hw; omega)
        | (intro w e hw; have := h6 w e hw; omega)
    | .filled =>
      have := h2 (Or.inr hc)
      have := h4 (Or.inr (Or.inl hc))
      simp only [step, hc]
      constructor <;> simp <;> first
        | omega
        | exact h7
        | (intro w wi e hw; have := h5 w wi e hw; omega)
        | (intro w e hw; have := h6 w e hw; omega)
    | .published =>
      have := h3 hc
      have := h4 (Or.inr (Or.inr hc))
      simp only [step, hc]
      constructor <;> simp <;> first
        | omega
        | exact h7
        | (intro w wi e hw; have := h5 w wi e hw; omega)
        | (intro w e hw; have := h6 w e hw; omega)
  | worker w =>
    have hbase : s.poolDone ≤ s.poolIdx ∧ s.poolIdx ≤ s.poolDone + 1 := by
      cases hc : s.caller
      · have := h1 hc; omega
      · have := h2 (Or.inl hc); omega
      · have := h2 (Or.inr hc); omega
      · have := h3 hc; omega
    match hw : s.worker w with
    | .top =>
      simp only [step, hw]
      refine ⟨h1, h2, h3, h4, ?_, ?_, h7⟩
      · intro d wi e hd
        simp only [upd] at hd; split at hd
        · cases hd; simp; omega
        · exact h5 d wi e hd
      · intro d e hd
        simp only [upd] at hd; split at hd
        · cases hd
        · exact h6 d e hd
    | .cmp wi e =>
      have h5w := h5 w wi e hw
      simp only [step, hw]
      refine ⟨h1, h2, h3, h4, ?_, ?_, h7⟩
      · intro d wi' e' hd
        simp only [upd] at hd; split at hd
        · split at hd <;> cases hd
        · exact h5 d wi' e' hd
      · intro d e' hd
        simp only [upd] at hd; split at hd
        · split at hd
          · cases hd; simp; omega
          · cases hd
        · exact h6 d e' hd
    | .get e =>
      have h6w := h6 w e hw
      simp only [step, hw]
      refine ⟨h1, h2, h3, h4, ?_, ?_, ?_⟩
      · intro d wi' e' hd
        simp only [upd] at hd; split at hd
        · cases hd
        · exact h5 d wi' e' hd
      · intro d e' hd
        simp only [upd] at hd; split at hd
        · cases hd
        · exact h6 d e' hd
      · intro r hr he
        rcases List.mem_cons.mp hr with rfl | hr
        · simp only at he ⊢
          subst he
          cases hc : s.caller
          · have := h1 hc; omega
          · have := h2 (Or.inl hc); omega
          · have := h2 (Or.inr hc); omega
          · have := h3 hc
            exact ⟨by simp, h4 (Or.inr (Or.inr hc)), by omega⟩
        · exact h7 r hr he

theorem inv_exec (l : List Act) : Inv (exec l) := by
  have : ∀ (l : List Act) s, Inv s → Inv (l.foldl step s) := by
    intro l
    induction l with
    | nil => exact fun s h => h
    | cons c l ih => exact fun s h => ih _ (inv_step h c)
  exact this l _ inv_init

/-- `k` complete calls with no worker activity. -/
def calls (k : Nat) : List Act := List.replicate (4 * k) .caller

def afterCalls (k : Nat) : St :=
  { caller := .idle, mainIdx := k, poolIdx := k, poolDone := k,
    slot := fun s => if s = 0 then (if RING ≤ k then RING else 0) else if s ≤ k ∧ s < RING then s else 0,
    worker := fun _ => .top, runs := [] }

theorem exec_calls : ∀ k, k ≤ RING → exec (calls k) = afterCalls k
  | 0, _ => by
    simp only [calls, exec, afterCalls, init]
    simp [RING]
    funext s
    split <;> rename_i h
    · rfl
    · split
      · omega
      · rfl
  | k + 1, hk => by
    have ih := exec_calls k (by omega)
    have e : calls (k + 1) = calls k ++ [.caller, .caller, .caller, .caller] := by
      simp only [calls]
      rw [show 4 * (k + 1) = 4 * k + 4 by omega, ← List.replicate_append_replicate]; rfl
    have e2 : exec (calls (k + 1)) = ([.caller, .caller, .caller, .caller] : List Act).foldl step (exec (calls k)) := by
      rw [e]; simp only [exec, List.foldl_append]
    rw [e2, ih]
    simp only [List.foldl_cons, List.foldl_nil, step, afterCalls, St.mk.injEq, true_and, and_true]
    funext s
    have hR : RING = 1024 := rfl
    simp only [upd]
    by_cases h1 : s = (k + 1) % RING
    · simp only [h1, if_true]
      by_cases h2 : k + 1 = RING
      · rw [h2, Nat.mod_self, if_pos rfl, if_pos (Nat.le_refl _)]
      · have : (k + 1) % RING = k + 1 := Nat.mod_eq_of_lt (by omega)
        rw [this, if_neg (by omega), if_pos (by omega)]
    · simp only [h1, if_false]
      by_cases h2 : s = 0
      · subst h2
        have a : ¬ RING ≤ k := by omega
        have b : ¬ RING ≤ k + 1 := by
          intro hle
          have : k + 1 = RING := by omega
          rw [this, Nat.mod_self] at h1; exact h1 rfl
        rw [if_pos rfl, if_pos rfl, if_neg a, if_neg b]
      · simp only [h2, if_false]
        have hm : k + 1 < RING → (k + 1) % RING = k + 1 := Nat.mod_eq_of_lt
        by_cases a : s ≤ k ∧ s < RING
        · rw [if_pos a, if_pos (by omega)]
        · rw [if_neg a, if_neg (by
            intro ⟨c, d⟩
            have : s = k + 1 := by omega
            have := hm (by omega)
            omega)]

end Pnumpy.Ring
