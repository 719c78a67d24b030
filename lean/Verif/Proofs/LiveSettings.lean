import Verif.Spec.LiveSettings
import Verif.Spec.TermsWork
import Mathlib.Data.Nat.Find
/-
A run with changing settings is a run of `Verif.Model.Callers` in which each operation is started with the settings it is going to read.
-/
namespace Pnumpy.LiveSettings
open Pnumpy.Work (upd)
open Pnumpy.Callers (Job Item Worker RING)

/-- The first value of `f` at a time from `m` on at which `P` does not hold. -/
noncomputable def nxt {X : Type} [Inhabited X] (P : Nat → Prop) (f : Nat → X) (m : Nat) : X := by
  classical exact if h : ∃ d, ¬ P (m + d) then f (m + Nat.find h) else default

theorem nxt_here {X : Type} [Inhabited X] {P : Nat → Prop} {f : Nat → X} {m : Nat} (h : ¬ P m) : nxt P f m = f m := by
  classical
  have hx : ∃ d, ¬ P (m + d) := ⟨0, h⟩
  have : Nat.find hx = 0 := by rw [Nat.find_eq_zero]; exact h
  simp only [nxt, dif_pos hx, this, Nat.add_zero]

theorem nxt_later {X : Type} [Inhabited X] {P : Nat → Prop} {f : Nat → X} {m : Nat} (h : P m) : nxt P f m = nxt P f (m + 1) := by
  classical
  by_cases hx : ∃ d, ¬ P (m + d)
  · have hy : ∃ d, ¬ P (m + 1 + d) := by
      obtain ⟨d, hd⟩ := hx
      cases d with
      | zero => exact absurd h hd
      | succ d => exact ⟨d, by rwa [Nat.add_right_comm m 1 d]⟩
    have e : Nat.find hx = Nat.find hy + 1 := by
      rw [Nat.find_eq_iff]
      refine ⟨?_, ?_⟩
      · have := Nat.find_spec hy
        rwa [Nat.add_right_comm m 1] at this
      · intro d hd hn
        cases d with
        | zero => exact hn h
        | succ d =>
          refine Nat.find_min hy (m := d) (by omega) ?_
          rwa [Nat.add_right_comm m 1]
    simp only [nxt, dif_pos hx, dif_pos hy, e]
    congr 1; omega
  · have hy : ¬ ∃ d, ¬ P (m + 1 + d) := by
      rintro ⟨d, hd⟩
      exact hx ⟨d + 1, by rwa [Nat.add_right_comm m 1] at hd⟩
    simp only [nxt, dif_neg hx, dif_neg hy]

/-- The thread has not read the zigzag flag yet. -/
def Thread.preZ : Thread → Bool
  | .want _ | .take _ _ | .zig _ _ _ => true
  | _ => false

/-- The thread has not read the number of workers yet. -/
def Thread.preW : Thread → Bool
  | .want _ | .take _ _ | .zig _ _ _ | .got _ _ _ _ | .size _ _ _ => true
  | _ => false

/-- The value of the flag it has read. -/
def Thread.z : Thread → Nat
  | .got _ _ _ z | .size _ _ z | .fill _ _ _ z => z
  | _ => 0

/-- The number of workers it has read. -/
def Thread.w : Thread → Nat
  | .fill _ _ w _ => w
  | _ => 0

/-- The flag thread `t` is going to read. -/
noncomputable def jz (W : Nat) (σ : Nat → Act) (m t : Nat) : Nat :=
  nxt (fun m => ((states W σ m).thread t).preZ = true) (fun m => ((states W σ m).thread t).z) m

/-- The number of workers thread `t` is going to read. -/
noncomputable def jw (W : Nat) (σ : Nat → Act) (m t : Nat) : Nat :=
  nxt (fun m => ((states W σ m).thread t).preW = true) (fun m => ((states W σ m).thread t).w) m

/-- The corresponding thread state of `Verif.Model.Callers`. -/
def absT (jw jz : Nat) : Thread → Callers.Thread
  | .idle | .test _ _ | .alone _ => .idle
  | .want c => .want (c.job jw jz)
  | .take lk c => .take lk (c.job jw jz)
  | .zig lk i c => .got lk i (c.job jw jz)
  | .got lk i c z => .got lk i (c.job jw z)
  | .size i c z => .fill i (c.job jw z)
  | .fill i c w z => .fill i (c.job w z)
  | .ztest i c w z | .zload i c w z | .zstore i c w z _ | .publish i c w z => .publish i (c.job w z)
  | .inCall i c w z => .inCall i (c.job w z)
  | .finish i c w z => .finish i (c.job w z)
  | .serial c => .serial (c.job 0 0)

/-- The corresponding state of `Verif.Model.Callers`. -/
noncomputable def abs (W : Nat) (σ : Nat → Act) (m : Nat) : Callers.St :=
  { lock := (states W σ m).lock, main := (states W σ m).main, poolIdx := (states W σ m).poolIdx, poolDone := (states W σ m).poolDone,
    slot := (states W σ m).slot, worker := (states W σ m).worker,
    thread := fun t => absT (jw W σ m t) (jz W σ m t) ((states W σ m).thread t) }

/-- The corresponding step (`.worker 0` is no step). -/
noncomputable def act (W : Nat) (σ : Nat → Act) (m : Nat) : Callers.Act :=
  match σ m with
  | .worker w => .worker w
  | .thread t =>
    match (states W σ m).thread t with
    | .idle => .worker 0
    | .test lk c => if (states W σ m).noThreading then .worker 0 else .start t lk (c.job (jw W σ (m + 1) t) (jz W σ (m + 1) t))
    | .alone _ | .zig _ _ _ | .size _ _ _ | .ztest _ _ _ _ | .zload _ _ _ _ | .zstore _ _ _ _ _ => .worker 0
    | _ => .thread t
  | .giveUp t =>
    match (states W σ m).thread t with
    | .size _ _ _ => .giveUp t
    | _ => .worker 0
  | _ => .worker 0

theorem keep (W : Nat) (σ : Nat → Act) (m t : Nat) (h : (states W σ (m + 1)).thread t = (states W σ m).thread t) :
    absT (jw W σ (m + 1) t) (jz W σ (m + 1) t) ((states W σ (m + 1)).thread t) = absT (jw W σ m t) (jz W σ m t) ((states W σ m).thread t) := by
  rw [h]
  have hw : ((states W σ m).thread t).preW = true → jw W σ m t = jw W σ (m + 1) t :=
    fun hp => nxt_later (P := fun m => ((states W σ m).thread t).preW = true) hp
  have hz : ((states W σ m).thread t).preZ = true → jz W σ m t = jz W σ (m + 1) t :=
    fun hp => nxt_later (P := fun m => ((states W σ m).thread t).preZ = true) hp
  generalize (states W σ m).thread t = x at *
  cases x <;> first | rfl | rw [hw rfl, hz rfl] | (simp only [absT]; rw [hw rfl])

/-- Only thread `t` moves: `X` is its new state. -/
theorem moved (W : Nat) (σ : Nat → Act) (m t : Nat) (X : Thread) (h : (states W σ (m + 1)).thread = upd (states W σ m).thread t X) :
    (abs W σ (m + 1)).thread = upd (abs W σ m).thread t (absT (jw W σ (m + 1) t) (jz W σ (m + 1) t) X) := by
  funext t'
  by_cases e : t' = t
  · subst e
    simp only [abs, h, upd, if_pos]
  · simp only [upd, if_neg e]
    exact keep W σ m t' (by rw [h]; simp only [upd, if_neg e])

theorem unmoved (W : Nat) (σ : Nat → Act) (m : Nat) (h : (states W σ (m + 1)).thread = (states W σ m).thread) :
    (abs W σ (m + 1)).thread = (abs W σ m).thread := by
  funext t'
  exact keep W σ m t' (by rw [h])

theorem upd_self {β : Type} (f : Nat → β) (i : Nat) : upd f i (f i) = f := by
  funext j; by_cases e : j = i
  · subst e; simp [upd]
  · simp [upd, e]

theorem jw_later {W : Nat} {σ : Nat → Act} {m t : Nat} (h : ((states W σ m).thread t).preW = true) : jw W σ m t = jw W σ (m + 1) t :=
  nxt_later (P := fun m => ((states W σ m).thread t).preW = true) h
theorem jz_later {W : Nat} {σ : Nat → Act} {m t : Nat} (h : ((states W σ m).thread t).preZ = true) : jz W σ m t = jz W σ (m + 1) t :=
  nxt_later (P := fun m => ((states W σ m).thread t).preZ = true) h
theorem jw_here {W : Nat} {σ : Nat → Act} {m t : Nat} {X : Thread} (h : (states W σ m).thread t = X) (hp : X.preW = false) : jw W σ m t = X.w := by
  subst h; exact nxt_here (P := fun m => ((states W σ m).thread t).preW = true) (by simpa using hp)
theorem jz_here {W : Nat} {σ : Nat → Act} {m t : Nat} {X : Thread} (h : (states W σ m).thread t = X) (hp : X.preZ = false) : jz W σ m t = X.z := by
  subst h; exact nxt_here (P := fun m => ((states W σ m).thread t).preZ = true) (by simpa using hp)

theorem St_ext {a b : Callers.St} (h1 : a.lock = b.lock) (h2 : a.main = b.main) (h3 : a.poolIdx = b.poolIdx) (h4 : a.poolDone = b.poolDone)
    (h5 : a.slot = b.slot) (h6 : a.thread = b.thread) (h7 : a.worker = b.worker) : a = b := by
  cases a; cases b; simp_all

theorem abs_zero (W : Nat) (σ : Nat → Act) : abs W σ 0 = Callers.init := by
  refine St_ext rfl rfl rfl rfl rfl ?_ rfl
  funext t; rfl

theorem abs_step (W : Nat) (σ : Nat → Act) (m : Nat) : abs W σ (m + 1) = Callers.step (abs W σ m) (act W σ m) := by
  have hs : states W σ (m + 1) = step W (states W σ m) (σ m) := rfl
  have noop : ∀ s : Callers.St, Callers.step s (.worker 0) = s := fun s => by simp [Callers.step]
  cases ha : σ m with
  | enable => simp only [act, ha, noop]; rw [ha] at hs; exact St_ext (by simp only [abs, hs, step]) (by simp only [abs, hs, step]) (by simp only [abs, hs, step]) (by simp only [abs, hs, step]) (by simp only [abs, hs, step]) (unmoved W σ m (by simp only [hs, step])) (by simp only [abs, hs, step])
  | disable => simp only [act, ha, noop]; rw [ha] at hs; exact St_ext (by simp only [abs, hs, step]) (by simp only [abs, hs, step]) (by simp only [abs, hs, step]) (by simp only [abs, hs, step]) (by simp only [abs, hs, step]) (unmoved W σ m (by simp only [hs, step])) (by simp only [abs, hs, step])
  | setWorkers k => simp only [act, ha, noop]; rw [ha] at hs; exact St_ext (by simp only [abs, hs, step]) (by simp only [abs, hs, step]) (by simp only [abs, hs, step]) (by simp only [abs, hs, step]) (by simp only [abs, hs, step]) (unmoved W σ m (by simp only [hs, step])) (by simp only [abs, hs, step])
  | zigRead =>
    simp only [act, ha, noop]; rw [ha] at hs
    cases hg : (states W σ m).toggle <;> simp only [step, hg] at hs <;>
    exact St_ext (by simp only [abs, hs]) (by simp only [abs, hs]) (by simp only [abs, hs]) (by simp only [abs, hs]) (by simp only [abs, hs]) (unmoved W σ m (by simp only [hs])) (by simp only [abs, hs])
  | zigWrite =>
    simp only [act, ha, noop]; rw [ha] at hs
    cases hg : (states W σ m).toggle <;> simp only [step, hg] at hs <;>
    exact St_ext (by simp only [abs, hs]) (by simp only [abs, hs]) (by simp only [abs, hs]) (by simp only [abs, hs]) (by simp only [abs, hs]) (unmoved W σ m (by simp only [hs])) (by simp only [abs, hs])
  | start t lk c =>
    simp only [act, ha, noop]; rw [ha] at hs
    cases hg : (states W σ m).thread t with
    | idle =>
      simp only [step, hg] at hs
      refine St_ext (by simp only [abs, hs]) (by simp only [abs, hs]) (by simp only [abs, hs]) (by simp only [abs, hs]) (by simp only [abs, hs]) ?_ (by simp only [abs, hs])
      rw [moved W σ m t (.test lk c) (by simp only [hs])]
      have : (abs W σ m).thread t = .idle := by simp only [abs, hg, absT]
      simp only [absT]
      rw [← this, upd_self]
    | _ =>
      simp only [step, hg] at hs
      exact St_ext (by simp only [abs, hs]) (by simp only [abs, hs]) (by simp only [abs, hs]) (by simp only [abs, hs]) (by simp only [abs, hs]) (unmoved W σ m (by simp only [hs])) (by simp only [abs, hs])
  | giveUp t =>
    simp only [act, ha]; rw [ha] at hs
    cases hg : (states W σ m).thread t with
    | size i c z =>
      simp only [step, hg] at hs
      have hb : (abs W σ m).thread t = .fill i (c.job (jw W σ m t) z) := by simp only [abs, hg, absT]
      simp only [Callers.step, hb]
      refine St_ext (by simp only [abs, hs]) (by simp only [abs, hs]) (by simp only [abs, hs]) (by simp only [abs, hs]) (by simp only [abs, hs]) ?_ (by simp only [abs, hs])
      rw [moved W σ m t .idle (by simp only [hs])]; rfl
    | _ =>
      simp only [step, hg] at hs
      simp only [noop]
      exact St_ext (by simp only [abs, hs]) (by simp only [abs, hs]) (by simp only [abs, hs]) (by simp only [abs, hs]) (by simp only [abs, hs]) (unmoved W σ m (by simp only [hs])) (by simp only [abs, hs])
  | worker w =>
    simp only [act, ha]; rw [ha] at hs
    by_cases hw : w = 0
    · subst hw
      simp only [step, stepWorker, if_pos] at hs
      rw [noop]
      exact St_ext (by simp only [abs, hs]) (by simp only [abs, hs]) (by simp only [abs, hs]) (by simp only [abs, hs]) (by simp only [abs, hs]) (unmoved W σ m (by simp only [hs])) (by simp only [abs, hs])
    · have hx : (abs W σ m).worker w = (states W σ m).worker w := rfl
      simp only [step, stepWorker, if_neg hw] at hs
      simp only [Callers.step, if_neg hw, hx]
      cases hg : (states W σ m).worker w with
      | look =>
        simp only [hg] at hs
        have e1 : (abs W σ m).slot = (states W σ m).slot := rfl
        have e2 : (abs W σ m).main = (states W σ m).main := rfl
        simp only [e1, e2]
        split <;> rename_i hc
        · rw [if_pos hc] at hs
          exact St_ext (by simp only [abs, hs]) (by simp only [abs, hs]) (by simp only [abs, hs]) (by simp only [abs, hs]) (by simp only [abs, hs]) (unmoved W σ m (by simp only [hs])) (by simp only [abs, hs])
        · rw [if_neg hc] at hs
          exact St_ext (by simp only [abs, hs]) (by simp only [abs, hs]) (by simp only [abs, hs]) (by simp only [abs, hs]) (by simp only [abs, hs]) (unmoved W σ m (by simp only [hs])) (by simp only [abs, hs])
      | _ =>
        simp only [hg] at hs
        exact St_ext (by simp only [abs, hs]) (by simp only [abs, hs]) (by simp only [abs, hs]) (by simp only [abs, hs]) (by simp only [abs, hs]) (unmoved W σ m (by simp only [hs])) (by simp only [abs, hs] <;> rfl)
  | thread t =>
    rw [ha] at hs
    have stay : ∀ X, (states W σ m).thread t = X → ∀ Y, (states W σ (m + 1)).thread = upd (states W σ m).thread t Y →
        absT (jw W σ (m + 1) t) (jz W σ (m + 1) t) Y = absT (jw W σ m t) (jz W σ m t) X → (abs W σ (m + 1)).thread = (abs W σ m).thread := by
      intro X hX Y hY he
      rw [moved W σ m t Y hY, he, ← hX]
      exact upd_self (abs W σ m).thread t
    have nextT : ∀ Y, (states W σ (m + 1)).thread = upd (states W σ m).thread t Y → (states W σ (m + 1)).thread t = Y := by
      intro Y hY; rw [hY]; simp [upd]
    cases hg : (states W σ m).thread t with
    | idle =>
      simp only [act, ha, hg, noop]
      simp only [step, stepThread, hg] at hs
      exact St_ext (by simp only [abs, hs]) (by simp only [abs, hs]) (by simp only [abs, hs]) (by simp only [abs, hs]) (by simp only [abs, hs]) (unmoved W σ m (by simp only [hs])) (by simp only [abs, hs])
    | alone c =>
      simp only [act, ha, hg, noop]
      simp only [step, stepThread, hg] at hs
      exact St_ext (by simp only [abs, hs]) (by simp only [abs, hs]) (by simp only [abs, hs]) (by simp only [abs, hs]) (by simp only [abs, hs]) (stay _ hg .idle (by simp only [hs]) rfl) (by simp only [abs, hs])
    | test lk c =>
      simp only [step, stepThread, hg] at hs
      simp only [act, ha, hg]
      split <;> rename_i hn
      · rw [if_pos hn] at hs
        rw [noop]
        exact St_ext (by simp only [abs, hs]) (by simp only [abs, hs]) (by simp only [abs, hs]) (by simp only [abs, hs]) (by simp only [abs, hs]) (stay _ hg (.alone c) (by simp only [hs]) rfl) (by simp only [abs, hs])
      · rw [if_neg hn] at hs
        have hb : (abs W σ m).thread t = .idle := by simp only [abs, hg, absT]
        simp only [Callers.step, hb]
        refine St_ext (by simp only [abs, hs]) (by simp only [abs, hs]) (by simp only [abs, hs]) (by simp only [abs, hs]) (by simp only [abs, hs]) ?_ (by simp only [abs, hs])
        rw [moved W σ m t (if lk then .want c else .take false c) (by simp only [hs])]
        cases lk <;> rfl
    | want c =>
      have hb : (abs W σ m).thread t = .want (c.job (jw W σ m t) (jz W σ m t)) := by simp only [abs, hg, absT]
      have hl : (abs W σ m).lock = (states W σ m).lock := rfl
      simp only [act, ha, hg, Callers.step, hb, hl]
      simp only [step, stepThread, hg] at hs
      have w1 := jw_later (W := W) (σ := σ) (m := m) (t := t) (by rw [hg]; rfl)
      have z1 := jz_later (W := W) (σ := σ) (m := m) (t := t) (by rw [hg]; rfl)
      split <;> rename_i hn
      · rw [if_pos hn] at hs
        refine St_ext (by simp only [abs, hs]) (by simp only [abs, hs]) (by simp only [abs, hs]) (by simp only [abs, hs]) (by simp only [abs, hs]) ?_ (by simp only [abs, hs])
        have hm := moved W σ m t (.serial c) (by simp only [hs])
        have hn' := nextT (.serial c) (by simp only [hs])
        rw [hm, w1, z1, jw_here hn' rfl, jz_here hn' rfl]; rfl
      · rw [if_neg hn] at hs
        refine St_ext (by simp only [abs, hs]) (by simp only [abs, hs]) (by simp only [abs, hs]) (by simp only [abs, hs]) (by simp only [abs, hs]) ?_ (by simp only [abs, hs])
        rw [moved W σ m t (.take true c) (by simp only [hs]), w1, z1]; rfl
    | take lk c =>
      have hb : (abs W σ m).thread t = .take lk (c.job (jw W σ m t) (jz W σ m t)) := by simp only [abs, hg, absT]
      simp only [act, ha, hg, Callers.step, hb]
      simp only [step, stepThread, hg] at hs
      have w1 := jw_later (W := W) (σ := σ) (m := m) (t := t) (by rw [hg]; rfl)
      have z1 := jz_later (W := W) (σ := σ) (m := m) (t := t) (by rw [hg]; rfl)
      refine St_ext (by simp only [abs, hs]) (by simp only [abs, hs]) (by simp only [abs, hs]) (by simp only [abs, hs]) (by simp only [abs, hs]) ?_ (by simp only [abs, hs])
      rw [moved W σ m t (.zig lk ((states W σ m).main + 1) c) (by simp only [hs]), w1, z1]; rfl
    | zig lk i c =>
      simp only [act, ha, hg, noop]
      simp only [step, stepThread, hg] at hs
      have w1 := jw_later (W := W) (σ := σ) (m := m) (t := t) (by rw [hg]; rfl)
      have z1 := jz_later (W := W) (σ := σ) (m := m) (t := t) (by rw [hg]; rfl)
      have hn' := nextT (.got lk i c (states W σ m).zigzag) (by simp only [hs])
      refine St_ext (by simp only [abs, hs]) (by simp only [abs, hs]) (by simp only [abs, hs]) (by simp only [abs, hs]) (by simp only [abs, hs]) (stay _ hg _ (by simp only [hs]; rfl) ?_) (by simp only [abs, hs])
      rw [w1, z1, jz_here hn' rfl]; rfl
    | got lk i c z =>
      have hb : (abs W σ m).thread t = .got lk i (c.job (jw W σ m t) z) := by simp only [abs, hg, absT]
      have hl : (abs W σ m).lock = (states W σ m).lock := rfl
      simp only [act, ha, hg, Callers.step, hb, hl]
      simp only [step, stepThread, hg] at hs
      have w1 := jw_later (W := W) (σ := σ) (m := m) (t := t) (by rw [hg]; rfl)
      refine St_ext (by simp only [abs, hs]) (by simp only [abs, hs]) (by simp only [abs, hs]) (by simp only [abs, hs]) (by simp only [abs, hs]) ?_ (by simp only [abs, hs])
      rw [moved W σ m t (.size i c z) (by simp only [hs]), w1]; rfl
    | size i c z =>
      simp only [act, ha, hg, noop]
      simp only [step, stepThread, hg] at hs
      have w1 := jw_later (W := W) (σ := σ) (m := m) (t := t) (by rw [hg]; rfl)
      have hn' := nextT (.fill i c (states W σ m).wake z) (by simp only [hs])
      refine St_ext (by simp only [abs, hs]) (by simp only [abs, hs]) (by simp only [abs, hs]) (by simp only [abs, hs]) (by simp only [abs, hs]) (stay _ hg _ (by simp only [hs]; rfl) ?_) (by simp only [abs, hs])
      rw [w1, jw_here hn' rfl]; rfl
    | fill i c w z =>
      have hb : (abs W σ m).thread t = .fill i (c.job w z) := by simp only [abs, hg, absT]
      simp only [act, ha, hg, Callers.step, hb]
      simp only [step, stepThread, hg] at hs
      refine St_ext (by simp only [abs, hs]) (by simp only [abs, hs]) (by simp only [abs, hs]) (by simp only [abs, hs]) (by simp only [abs, hs]) ?_ (by simp only [abs, hs])
      rw [moved W σ m t (.ztest i c w z) (by simp only [hs])]; rfl
    | ztest i c w z =>
      simp only [act, ha, hg, noop]
      simp only [step, stepThread, hg] at hs
      refine St_ext (by simp only [abs, hs]) (by simp only [abs, hs]) (by simp only [abs, hs]) (by simp only [abs, hs]) (by simp only [abs, hs]) (stay _ hg _ (by simp only [hs]; rfl) ?_) (by simp only [abs, hs])
      split <;> rfl
    | zload i c w z =>
      simp only [act, ha, hg, noop]
      simp only [step, stepThread, hg] at hs
      exact St_ext (by simp only [abs, hs]) (by simp only [abs, hs]) (by simp only [abs, hs]) (by simp only [abs, hs]) (by simp only [abs, hs]) (stay _ hg _ (by simp only [hs]; rfl) rfl) (by simp only [abs, hs])
    | zstore i c w z v =>
      simp only [act, ha, hg, noop]
      simp only [step, stepThread, hg] at hs
      exact St_ext (by simp only [abs, hs]) (by simp only [abs, hs]) (by simp only [abs, hs]) (by simp only [abs, hs]) (by simp only [abs, hs]) (stay _ hg (.publish i c w z) (by simp only [hs]) rfl) (by simp only [abs, hs])
    | publish i c w z =>
      have hb : (abs W σ m).thread t = .publish i (c.job w z) := by simp only [abs, hg, absT]
      simp only [act, ha, hg, Callers.step, hb]
      simp only [step, stepThread, hg] at hs
      refine St_ext (by simp only [abs, hs]) (by simp only [abs, hs]) (by simp only [abs, hs]) (by simp only [abs, hs]) (by simp only [abs, hs]) ?_ (by simp only [abs, hs])
      rw [moved W σ m t (.inCall i c w z) (by simp only [hs])]; rfl
    | inCall i c w z =>
      have hb : (abs W σ m).thread t = .inCall i (c.job w z) := by simp only [abs, hg, absT]
      have hl : (abs W σ m).slot = (states W σ m).slot := rfl
      simp only [act, ha, hg, Callers.step, hb, hl]
      simp only [step, stepThread, hg] at hs
      split <;> rename_i hn
      · rw [if_pos hn] at hs
        refine St_ext (by simp only [abs, hs]) (by simp only [abs, hs]) (by simp only [abs, hs]) (by simp only [abs, hs]) (by simp only [abs, hs]) ?_ (by simp only [abs, hs])
        rw [moved W σ m t (.finish i c w z) (by simp only [hs])]; rfl
      · rw [if_neg hn] at hs
        exact St_ext (by simp only [abs, hs]) (by simp only [abs, hs]) (by simp only [abs, hs]) (by simp only [abs, hs]) (by simp only [abs, hs]) (unmoved W σ m (by simp only [hs])) (by simp only [abs, hs])
    | finish i c w z =>
      have hb : (abs W σ m).thread t = .finish i (c.job w z) := by simp only [abs, hg, absT]
      simp only [act, ha, hg, Callers.step, hb]
      simp only [step, stepThread, hg] at hs
      refine St_ext (by simp only [abs, hs]) (by simp only [abs, hs]) (by simp only [abs, hs]) (by simp only [abs, hs]) (by simp only [abs, hs]) ?_ (by simp only [abs, hs])
      rw [moved W σ m t .idle (by simp only [hs])]; rfl
    | serial c =>
      have hb : (abs W σ m).thread t = .serial (c.job 0 0) := by simp only [abs, hg, absT]
      simp only [act, ha, hg, Callers.step, hb]
      simp only [step, stepThread, hg] at hs
      refine St_ext (by simp only [abs, hs]) (by simp only [abs, hs]) (by simp only [abs, hs]) (by simp only [abs, hs]) (by simp only [abs, hs]) ?_ (by simp only [abs, hs])
      rw [moved W σ m t .idle (by simp only [hs])]; rfl

/-- The run is a run of `Verif.Model.Callers`. -/
theorem abs_states (W : Nat) (σ : Nat → Act) (m : Nat) : Callers.states (act W σ) m = abs W σ m := by
  induction m with
  | zero => exact (abs_zero W σ).symm
  | succ m ih => rw [Callers.states, ih, abs_step]

theorem abs_calm (W : Nat) (σ : Nat → Act) (m : Nat) (h : Calm (states W σ m)) : Callers.Calm (abs W σ m) := by
  intro t i hi
  refine h t i ?_
  simp only [abs] at hi
  generalize (states W σ m).thread t = x at hi
  cases x <;> simp_all [absT, Callers.Thread.idx, Thread.idx]

end Pnumpy.LiveSettings
