import Verif.Model.TsoCounter
import Verif.Proofs.Tso
import Verif.Proofs.WorkCounter
/-
Invariant and progress of the store-buffer model of counter-mode calls.
-/
namespace Pnumpy.TsoCounter
open Pnumpy.Work (upd upd_self upd_ne nodup_full)
open Pnumpy.Tso (load load_eq load_not_mem applyAll applyAll_append applyAll_not_mem)
open Counter (PC Cfg)

variable {V : Type}

theorem load_congr {l : List (Nat × V)} {a : Nat} : ∀ {m m' : Nat → V}, m a = m' a → load m l a = load m' l a := by
  induction l with
  | nil => intro m m' h; exact h
  | cons p l ih =>
    intro m m' h
    rw [load, load]
    apply ih
    by_cases hp : a = p.1
    · simp [hp]
    · simp [hp, h]

theorem load_snoc (l : List (Nat × V)) (m : Nat → V) (b : Nat) (v : V) (a : Nat) :
    load m (l ++ [(b, v)]) a = if a = b then v else load m l a := by
  rw [load_eq, applyAll_append, load_eq]; rfl

/-- The thread works on task `b`, or has finished it and is about to report it. -/
def At (p : PC) (b : Nat) : Prop := p = .run b ∨ p = .complete b

theorem At.inj {p : PC} {b b' : Nat} (h1 : At p b) (h2 : At p b') : b = b' := by
  rcases h1 with h1 | h1 <;> rcases h2 with h2 | h2 <;> rw [h1] at h2 <;> first | (cases h2; rfl) | cases h2

theorem At.unique {g : Cfg} {s : Counter.St} (h : Counter.Inv g s) {c d b : Nat} (h1 : At (s.pc c) b) (h2 : At (s.pc d) b) : c = d := by
  rcases h1 with h1 | h1 <;> rcases h2 with h2 | h2
  · exact h.runInj c d b h1 h2
  · exact absurd (h.compLog d b h2) (h.runNotLog c b h1)
  · exact absurd (h.compLog c b h1) (h.runNotLog d b h2)
  · exact h.compInj c d b h1 h2

theorem At.not_done {g : Cfg} {s : Counter.St} (h : Counter.Inv g s) {c b : Nat} (h1 : At (s.pc c) b) : b ∉ s.doneL := by
  rcases h1 with h1 | h1
  · exact fun hd => h.runNotLog c b h1 (h.doneLog b hd)
  · exact h.compFresh c b h1

theorem At.claimed {g : Cfg} {s : Counter.St} (h : Counter.Inv g s) {c b : Nat} (h1 : At (s.pc c) b) : Counter.Claimed g s b := by
  rcases h1 with h1 | h1
  · exact h.runClaimed c b h1
  · exact h.logClaimed b (h.compLog c b h1)

theorem At.lt {g : Cfg} {s : Counter.St} (h : Counter.Inv g s) {c b : Nat} (h1 : At (s.pc c) b) : b < g.n :=
  Counter.Inv.claimed_lt (At.claimed h h1)

/-- Task `b` changes cell `a` (a store of the value that is there does not count). -/
def Chg (prog : Nat → Prog V) (m : Nat → V) (b a : Nat) : Prop := ∃ v, (a, v) ∈ seqStores (prog b) m ∧ v ≠ m a

/-- Task `b` loads or stores cell `a`. -/
def Acc (prog : Nat → Prog V) (m : Nat → V) (b a : Nat) : Prop := a ∈ seqLoads (prog b) m ∨ ∃ v, (a, v) ∈ seqStores (prog b) m

theorem Chg.acc {prog : Nat → Prog V} {m : Nat → V} {b a : Nat} (h : Chg prog m b a) : Acc prog m b a := by
  obtain ⟨v, h, _⟩ := h; exact Or.inr ⟨v, h⟩

/-- Tasks keep out of each other's way. -/
def Disjoint (n : Nat) (prog : Nat → Prog V) (m : Nat → V) : Prop :=
  ∀ b b', b < n → b' < n → b ≠ b' → ∀ a, Chg prog m b a → ¬ Acc prog m b' a

structure InvB (g : Cfg) (prog : Nat → Prog V) (m1 : Nat → V) (s : St V) : Prop where
  work : Counter.Inv g s.ctl
  free : ∀ c, (∀ b, ¬ At (s.ctl.pc c) b) → s.buf c = []
  fresh : ∀ b, b < g.n → b ∉ s.ctl.doneL → (∀ c, ¬ At (s.ctl.pc c) b) → ∀ a, Chg prog m1 b a → s.mem a = m1 a
  fin : ∀ b ∈ s.ctl.doneL, ∀ a, Chg prog m1 b a → s.mem a = seqRun (prog b) m1 a
  rest : ∀ a, (∀ b, b < g.n → ¬ Chg prog m1 b a) → s.mem a = m1 a
  busy : ∀ c b, At (s.ctl.pc c) b → ∃ m, seqRun (s.code c) m = seqRun (prog b) m1 ∧
    (∀ a ∈ seqLoads (s.code c) m, a ∈ seqLoads (prog b) m1) ∧ (∀ p ∈ seqStores (s.code c) m, p ∈ seqStores (prog b) m1) ∧
    (∀ p ∈ s.buf c, p ∈ seqStores (prog b) m1) ∧
    ∀ a, Acc prog m1 b a → load s.mem (s.buf c) a = m a
  comp : ∀ c b, s.ctl.pc c = .complete b → s.code c = .done

variable {g : Cfg} {prog : Nat → Prog V} {m1 : Nat → V}

theorem inv_quiet {s : St V} {ctl' : Counter.St} (h : InvB g prog m1 s) (hw : Counter.Inv g ctl') (hd : ctl'.doneL = s.ctl.doneL)
    (hat : ∀ d b, At (ctl'.pc d) b ↔ At (s.ctl.pc d) b) (hcomp : ∀ d b, ctl'.pc d = .complete b → s.code d = .done) :
    InvB g prog m1 { s with ctl := ctl' } where
  work := hw
  free c hc := h.free c (fun b hb => hc b ((hat c b).2 hb))
  fresh b hb hn ha := h.fresh b hb (by rw [← hd]; exact hn) (fun c hc => ha c ((hat c b).2 hc))
  fin b hb := h.fin b (by rw [← hd]; exact hb)
  rest := h.rest
  busy c b hb := h.busy c b ((hat c b).1 hb)
  comp := hcomp

theorem inv_load {s : St V} {c b a : Nat} {k : V → Prog V} (h : InvB g prog m1 s) (hr : s.ctl.pc c = .run b) (hk : s.code c = .load a k) :
    InvB g prog m1 { s with code := upd s.code c (k (load s.mem (s.buf c) a)) } := by
  refine ⟨h.work, h.free, h.fresh, h.fin, h.rest, ?_, ?_⟩
  · intro d b' hd
    by_cases hdc : d = c
    · subst hdc
      obtain ⟨m, e1, e2, e3, e4, e5⟩ := h.busy d b' hd
      rw [hk] at e1 e2 e3
      have hv : load s.mem (s.buf d) a = m a := e5 a (Or.inl (e2 a List.mem_cons_self))
      refine ⟨m, ?_, ?_, ?_, e4, e5⟩
      · simp only [upd_self, hv]; exact e1
      · simp only [upd_self, hv]; exact fun x hx => e2 x (List.mem_cons_of_mem _ hx)
      · simp only [upd_self, hv]; exact e3
    · simp only [upd_ne _ _ hdc]; exact h.busy d b' hd
  · intro d b' hd
    have hdc : d ≠ c := fun e => by subst e; rw [hr] at hd; cases hd
    simp only [upd_ne _ _ hdc]; exact h.comp d b' hd

theorem inv_store {s : St V} {c b a : Nat} {v : V} {k : Prog V} (h : InvB g prog m1 s) (hr : s.ctl.pc c = .run b) (hk : s.code c = .store a v k) :
    InvB g prog m1 { s with buf := upd s.buf c (s.buf c ++ [(a, v)]), code := upd s.code c k } := by
  refine ⟨h.work, ?_, h.fresh, h.fin, h.rest, ?_, ?_⟩
  · intro d hd
    have hdc : d ≠ c := fun e => by subst e; exact hd b (Or.inl hr)
    simp only [upd_ne _ _ hdc]; exact h.free d hd
  · intro d b' hd
    by_cases hdc : d = c
    · subst hdc
      obtain ⟨m, e1, e2, e3, e4, e5⟩ := h.busy d b' hd
      rw [hk] at e1 e2 e3
      simp only [upd_self]
      refine ⟨fun x => if x = a then v else m x, e1, e2, fun x hx => e3 x (List.mem_cons_of_mem _ hx), ?_, ?_⟩
      · intro p hp
        rcases List.mem_append.1 hp with hp | hp
        · exact e4 p hp
        · rw [List.mem_singleton] at hp; subst hp; exact e3 _ List.mem_cons_self
      · intro x hx
        rw [load_snoc, e5 x hx]
    · simp only [upd_ne _ _ hdc]; exact h.busy d b' hd
  · intro d b' hd
    have hdc : d ≠ c := fun e => by subst e; rw [hr] at hd; cases hd
    simp only [upd_ne _ _ hdc]; exact h.comp d b' hd

theorem inv_drain {s : St V} {c a : Nat} {v : V} {l : List (Nat × V)} (hdj : Disjoint g.n prog m1) (h : InvB g prog m1 s) (hb : s.buf c = (a, v) :: l) :
    InvB g prog m1 { s with mem := fun x => if x = a then v else s.mem x, buf := upd s.buf c l } := by
  have hat : ∃ b, At (s.ctl.pc c) b := by
    refine Classical.byContradiction fun hno => ?_
    rw [h.free c (fun b hb' => hno ⟨b, hb'⟩)] at hb
    cases hb
  obtain ⟨b, hat⟩ := hat
  have hlt := At.lt h.work hat
  obtain ⟨m, e1, e2, e3, e4, e5⟩ := h.busy c b hat
  have ha : (a, v) ∈ seqStores (prog b) m1 := e4 (a, v) (by rw [hb]; exact List.mem_cons_self)
  have hacc : Acc prog m1 b a := Or.inr ⟨v, ha⟩
  by_cases hch : Chg prog m1 b a
  · refine ⟨h.work, ?_, ?_, ?_, ?_, ?_, h.comp⟩
    · intro d hd
      have hdc : d ≠ c := fun e => by subst e; exact hd b hat
      simp only [upd_ne _ _ hdc]; exact h.free d hd
    · intro b' hb' hn hna x hx
      have hne : b ≠ b' := fun e => hna c (by rw [← e]; exact hat)
      have hxa : x ≠ a := fun e => hdj b b' hlt hb' hne a hch (by rw [← e]; exact hx.acc)
      simp only [if_neg hxa]
      exact h.fresh b' hb' hn hna x hx
    · intro b' hb' x hx
      have hne : b ≠ b' := fun e => At.not_done h.work hat (by rw [e]; exact hb')
      have hlt' : b' < g.n := Counter.Inv.claimed_lt (h.work.logClaimed b' (h.work.doneLog b' hb'))
      have hxa : x ≠ a := fun e => hdj b b' hlt hlt' hne a hch (by rw [← e]; exact hx.acc)
      simp only [if_neg hxa]
      exact h.fin b' hb' x hx
    · intro x hx
      have hxa : x ≠ a := fun e => hx b hlt (by rw [e]; exact hch)
      simp only [if_neg hxa]
      exact h.rest x hx
    · intro d b' hd
      by_cases hdc : d = c
      · subst hdc
        obtain rfl := At.inj hat hd
        simp only [upd_self]
        refine ⟨m, e1, e2, e3, fun p hp => e4 p (by rw [hb]; exact List.mem_cons_of_mem _ hp), fun x hx => ?_⟩
        rw [← e5 x hx, hb]; rfl
      · simp only [upd_ne _ _ hdc]
        obtain ⟨m', f1, f2, f3, f4, f5⟩ := h.busy d b' hd
        have hne : b ≠ b' := fun e => hdc (At.unique h.work (by rw [e]; exact hd) hat)
        have hlt' := At.lt h.work hd
        refine ⟨m', f1, f2, f3, f4, fun x hx => ?_⟩
        have hxa : x ≠ a := fun e => hdj b b' hlt hlt' hne a hch (by rw [← e]; exact hx)
        rw [← f5 x hx]
        exact load_congr (if_neg hxa)
  · have hv : v = m1 a := Classical.byContradiction fun hv => hch ⟨v, ha, hv⟩
    have hma : s.mem a = m1 a := h.rest a fun b' hb' hc' => by
      by_cases hbb : b' = b
      · subst hbb; exact hch hc'
      · exact hdj b' b hb' hlt hbb a hc' hacc
    have hmem : (fun x => if x = a then v else s.mem x) = s.mem := by
      funext x
      by_cases hx : x = a
      · subst hx; simp [hv, hma]
      · simp [hx]
    rw [hmem]
    refine ⟨h.work, ?_, h.fresh, h.fin, h.rest, ?_, h.comp⟩
    · intro d hd
      have hdc : d ≠ c := fun e => by subst e; exact hd b hat
      simp only [upd_ne _ _ hdc]; exact h.free d hd
    · intro d b' hd
      by_cases hdc : d = c
      · subst hdc
        obtain rfl := At.inj hat hd
        simp only [upd_self]
        refine ⟨m, e1, e2, e3, fun p hp => e4 p (by rw [hb]; exact List.mem_cons_of_mem _ hp), fun x hx => ?_⟩
        rw [← e5 x hx, hb, load, hmem]
      · simp only [upd_ne _ _ hdc]
        exact h.busy d b' hd

theorem inv_fetch {s : St V} {c : Nat} {did : Bool} (hdj : Disjoint g.n prog m1) (h : InvB g prog m1 s) (hc : ¬ g.wakeup < c) (hr : s.ctl.pc c = .fetch did) (he : s.buf c = []) :
    InvB g prog m1 { s with
      ctl := Counter.step g s.ctl (.go c)
      code := upd s.code c (match g.task s.ctl.next with | some b => prog b | none => .done) } := by
  have hw := Counter.inv_step h.work (.go c)
  have hs : Counter.step g s.ctl (.go c) = { s.ctl with
      next := s.ctl.next + 1, zeroBy := if s.ctl.next = 0 then some c else s.ctl.zeroBy,
      pc := upd s.ctl.pc c (match g.task s.ctl.next with | some b => .run b | none => .ret did) } := by
    unfold Counter.step; simp only [if_neg hc, hr]
    cases g.task s.ctl.next <;> rfl
  have hnc : ∀ b, ¬ At (s.ctl.pc c) b := by
    rintro b (hb | hb) <;> rw [hr] at hb <;> cases hb
  cases ht : g.task s.ctl.next with
  | none =>
    simp only [ht] at hs
    have hat : ∀ d b, At ((Counter.step g s.ctl (.go c)).pc d) b ↔ At (s.ctl.pc d) b := by
      intro d b
      rw [hs]
      by_cases hdc : d = c
      · subst hdc; simp only [upd_self]
        exact ⟨fun hx => (by rcases hx with hx | hx <;> cases hx), fun hx => absurd hx (hnc b)⟩
      · simp only [upd_ne _ _ hdc]
    have hdl : (Counter.step g s.ctl (.go c)).doneL = s.ctl.doneL := by rw [hs]
    refine ⟨hw, fun d hd => h.free d (fun b hb => hd b ((hat d b).2 hb)), fun b hb hn ha => h.fresh b hb (by rw [← hdl]; exact hn) (fun d hd => ha d ((hat d b).2 hd)),
      fun b hb => h.fin b (by rw [← hdl]; exact hb), h.rest, ?_, ?_⟩
    · intro d b hd
      have hd' := (hat d b).1 hd
      have hdc : d ≠ c := fun e => by subst e; exact hnc b hd'
      simp only [upd_ne _ _ hdc]; exact h.busy d b hd'
    · intro d b hd
      have hdc : d ≠ c := fun e => by subst e; exact hnc b ((hat d b).1 (Or.inr hd))
      simp only [upd_ne _ _ hdc]
      rw [hs] at hd
      simp only [upd_ne _ _ hdc] at hd
      exact h.comp d b hd
  | some b =>
    simp only [ht] at hs
    have hlt := (Counter.task_some_lt ht).1
    have hncl : ¬ Counter.Claimed g s.ctl b := by
      rintro ⟨k, hk, hkb⟩
      have := Counter.task_inj hkb ht
      omega
    have hnd : b ∉ s.ctl.doneL := fun hd => hncl (h.work.logClaimed b (h.work.doneLog b hd))
    have hna : ∀ d, ¬ At (s.ctl.pc d) b := fun d hd => hncl (At.claimed h.work hd)
    have hdl : (Counter.step g s.ctl (.go c)).doneL = s.ctl.doneL := by rw [hs]
    have hpc : (Counter.step g s.ctl (.go c)).pc c = .run b := by rw [hs]; simp only [upd_self]
    have hpo : ∀ d, d ≠ c → (Counter.step g s.ctl (.go c)).pc d = s.ctl.pc d := by
      intro d hd; rw [hs]; simp only [upd_ne _ _ hd]
    refine ⟨hw, ?_, ?_, fun b' hb' => h.fin b' (by rw [← hdl]; exact hb'), h.rest, ?_, ?_⟩
    · intro d hd
      have hdc : d ≠ c := fun e => by subst e; exact hd b (Or.inl hpc)
      exact h.free d (fun b' hb' => hd b' (by simp only [hpo d hdc]; exact hb'))
    · intro b' hb' hn ha
      refine h.fresh b' hb' (by rw [← hdl]; exact hn) (fun d hd => ?_)
      have hdc : d ≠ c := fun e => by subst e; exact hnc b' hd
      exact ha d (by simp only [hpo d hdc]; exact hd)
    · intro d b' hd
      by_cases hdc : d = c
      · subst hdc
        simp only [hpc] at hd
        obtain rfl := At.inj (Or.inl rfl) hd
        simp only [upd_self]
        refine ⟨m1, rfl, fun _ h => h, fun _ h => h, ?_, ?_⟩
        · rw [he]; intro p hp; cases hp
        · intro x hx
          rw [he]
          show s.mem x = m1 x
          by_cases hx1 : Chg prog m1 b x
          · exact h.fresh b hlt hnd hna x hx1
          · refine h.rest x (fun b' hb' hs' => ?_)
            by_cases hbb : b' = b
            · subst hbb; exact hx1 hs'
            · exact hdj b' b hb' hlt hbb x hs' hx
      · simp only [hpo d hdc] at hd
        simp only [upd_ne _ _ hdc]; exact h.busy d b' hd
    · intro d b' hd
      have hdc : d ≠ c := fun e => by subst e; simp only [hpc] at hd; cases hd
      simp only [hpo d hdc] at hd
      simp only [upd_ne _ _ hdc]; exact h.comp d b' hd

theorem inv_report {s : St V} {c b : Nat} (h : InvB g prog m1 s) (hc : ¬ g.wakeup < c) (hr : s.ctl.pc c = .complete b) (he : s.buf c = []) :
    InvB g prog m1 { s with ctl := Counter.step g s.ctl (.go c) } := by
  have hw := Counter.inv_step h.work (.go c)
  have hs : Counter.step g s.ctl (.go c) = { s.ctl with
      completed := s.ctl.completed + 1, pc := upd s.ctl.pc c (.fetch true), doneL := b :: s.ctl.doneL } := by
    unfold Counter.step; simp only [if_neg hc, hr]
  have hdl : (Counter.step g s.ctl (.go c)).doneL = b :: s.ctl.doneL := by rw [hs]
  have hpc : (Counter.step g s.ctl (.go c)).pc c = .fetch true := by rw [hs]; simp only [upd_self]
  have hpo : ∀ d, d ≠ c → (Counter.step g s.ctl (.go c)).pc d = s.ctl.pc d := by
    intro d hd; rw [hs]; simp only [upd_ne _ _ hd]
  have hnn : ∀ b', ¬ At ((Counter.step g s.ctl (.go c)).pc c) b' := by
    rintro b' (hb | hb) <;> rw [hpc] at hb <;> cases hb
  refine ⟨hw, ?_, ?_, ?_, h.rest, ?_, ?_⟩
  · intro d hd
    by_cases hdc : d = c
    · subst hdc; exact he
    · exact h.free d (fun b' hb' => hd b' (by simp only [hpo d hdc]; exact hb'))
  · intro b' hb' hn ha
    simp only [hdl, List.mem_cons, not_or] at hn
    refine h.fresh b' hb' hn.2 (fun d hd => ?_)
    have hdc : d ≠ c := fun e => by
      subst e
      exact hn.1 (At.inj hd (Or.inr hr))
    exact ha d (by simp only [hpo d hdc]; exact hd)
  · intro b' hb' x hx
    simp only [hdl] at hb'
    rcases List.mem_cons.1 hb' with rfl | hb'
    · obtain ⟨m, e1, _, _, _, e5⟩ := h.busy c b' (Or.inr hr)
      rw [h.comp c b' hr] at e1
      have := e5 x hx.acc
      rw [he] at this
      show s.mem x = _
      rw [← e1]; exact this
    · exact h.fin b' hb' x hx
  · intro d b' hd
    have hdc : d ≠ c := fun e => by subst e; exact hnn b' hd
    simp only [hpo d hdc] at hd
    exact h.busy d b' hd
  · intro d b' hd
    have hdc : d ≠ c := fun e => by subst e; exact hnn b' (Or.inr hd)
    simp only [hpo d hdc] at hd
    exact h.comp d b' hd

/-- A control step of a thread that is not in a task and does not draw one. -/
theorem inv_ctl {s : St V} {a : Counter.Act} {c : Nat} (ha : a = .go c ∨ a = .wake c) (h : InvB g prog m1 s) (h1 : ∀ b, ¬ At (s.ctl.pc c) b) (h2 : ∀ d, s.ctl.pc c ≠ .fetch d) :
    InvB g prog m1 { s with ctl := Counter.step g s.ctl a } := by
  have hna : ∀ b, ¬ At ((Counter.step g s.ctl a).pc c) b := by
    rintro b hb
    rcases ha with rfl | rfl
    · unfold Counter.step at hb
      simp only at hb
      split at hb
      · exact h1 b hb
      · split at hb
        · simp [At] at hb
        · rename_i d hd; exact h2 d hd
        · rename_i b' hb'; exact h1 b' (Or.inl hb')
        · rename_i b' hb'; exact h1 b' (Or.inr hb')
        · simp only [upd_self, At] at hb
          split at hb
          · simp at hb
          · split at hb <;> simp at hb
        · exact h1 b hb
        · split at hb
          · exact h1 b hb
          · simp [At] at hb
        · exact h1 b hb
    · unfold Counter.step at hb
      simp only at hb
      split at hb
      · simp [At] at hb
      · exact h1 b hb
  have hpo : ∀ d, d ≠ c → (Counter.step g s.ctl a).pc d = s.ctl.pc d := fun d hd => Counter.step_other g _ hd _ ha
  refine inv_quiet h (Counter.inv_step h.work a) ?_ ?_ ?_
  · rcases ha with rfl | rfl
    · unfold Counter.step
      simp only
      split
      · rfl
      · split <;> first | rfl | skip
        · rename_i b' hb'; exact absurd (Or.inr hb') (h1 b')
        · split <;> rfl
    · unfold Counter.step
      simp only
      split <;> rfl
  · intro d b
    by_cases hdc : d = c
    · subst hdc; exact ⟨fun hx => absurd hx (hna b), fun hx => absurd hx (h1 b)⟩
    · rw [hpo d hdc]
  · intro d b hd
    have hdc : d ≠ c := fun e => by subst e; exact hna b (Or.inr hd)
    rw [hpo d hdc] at hd
    exact h.comp d b hd

/-- Before the publishing store has reached memory: nobody has started. -/
structure InvA (mem0 : Nat → V) (before : List (Nat × V)) (flag : Nat × V) (s : St V) : Prop where
  ctl : s.ctl = Counter.init
  buf : ∃ done left, before = done ++ left ∧ s.buf 0 = left ++ [flag] ∧ s.mem = applyAll mem0 done
  others : ∀ c, c ≠ 0 → s.buf c = []

/-- The whole invariant. -/
def Inv2 (g : Cfg) (prog : Nat → Prog V) (mem0 : Nat → V) (before : List (Nat × V)) (flag : Nat × V) (s : St V) : Prop :=
  InvA mem0 before flag s ∨ InvB g prog (applyAll mem0 (before ++ [flag])) s

theorem init_not_at (c b : Nat) : ¬ At (Counter.init.pc c) b := by
  unfold Counter.init At
  simp only
  by_cases hc : c = 0 <;> simp [hc]

theorem invB_start {mem0 : Nat → V} {before : List (Nat × V)} {flag : Nat × V} {s : St V} (h : InvA mem0 before flag s) (hb : s.buf 0 = [flag]) :
    InvB g prog (applyAll mem0 (before ++ [flag])) { s with mem := fun x => if x = flag.1 then flag.2 else s.mem x, buf := upd s.buf 0 [] } := by
  have hm : (fun x => if x = flag.1 then flag.2 else s.mem x) = applyAll mem0 (before ++ [flag]) := by
    obtain ⟨done, left, h1, h2, h3⟩ := h.buf
    rw [hb] at h2
    have hlen := congrArg List.length h2
    have : left = [] := by
      cases left with
      | nil => rfl
      | cons a l => simp at hlen
    subst this
    rw [applyAll_append, h1, List.append_nil, h3]
    rfl
  have hnat : ∀ c b, ¬ At (s.ctl.pc c) b := by rw [h.ctl]; exact init_not_at
  refine ⟨by simp only [h.ctl]; exact Counter.inv_init _, ?_, fun b _ _ _ a _ => congrFun hm a, ?_, fun a _ => congrFun hm a, fun c b hc => absurd hc (hnat c b), fun c b hc => absurd (Or.inr hc) (hnat c b)⟩
  · intro c _
    by_cases hc : c = 0
    · subst hc; simp only [upd_self]
    · simp only [upd_ne _ _ hc]; exact h.others c hc
  · intro b hb; simp only [h.ctl] at hb; cases hb

theorem inv2_step [DecidableEq V] {mem0 : Nat → V} {before : List (Nat × V)} {flag : Nat × V} {s : St V} (hdj : Disjoint g.n prog (applyAll mem0 (before ++ [flag])))
    (hf : ∀ p ∈ before, p.1 ≠ flag.1) (h0 : mem0 flag.1 ≠ flag.2)
    (h : Inv2 g prog mem0 before flag s) (a : Act) : Inv2 g prog mem0 before flag (step g prog flag s a) := by
  rcases h with h | h
  · obtain ⟨done, left, h1, h2, h3⟩ := h.buf
    cases a with
    | wake c =>
      refine Or.inl ?_
      have : Counter.step g s.ctl (.wake c) = s.ctl := by
        rw [h.ctl]
        unfold Counter.step
        simp only
        rw [if_neg]
        rintro ⟨hp, hc⟩
        unfold Counter.init at hp
        simp [hc] at hp
      unfold step
      simp only [this]
      exact h
    | drain c =>
      by_cases hc : c = 0
      · subst hc
        cases left with
        | nil =>
          refine Or.inr ?_
          have := invB_start (g := g) (prog := prog) h h2
          unfold step
          simp only [h2, List.nil_append]
          exact this
        | cons p left =>
          refine Or.inl ?_
          unfold step
          simp only [h2, List.cons_append]
          refine ⟨h.ctl, ⟨done ++ [p], left, by rw [h1]; simp, by simp, ?_⟩, fun c hc => ?_⟩
          · rw [applyAll_append, ← h3]; rfl
          · simp only [upd_ne _ _ hc]; exact h.others c hc
      · refine Or.inl ?_
        unfold step
        simp only [h.others c hc]
        exact h
    | go c =>
      refine Or.inl ?_
      unfold step
      simp only
      split
      · exact h
      · by_cases hc : c = 0
        · subst hc
          have hpc : s.ctl.pc 0 = .fetch false := by rw [h.ctl]; rfl
          have hne : s.buf 0 ≠ [] := by rw [h2]; simp
          simp only [hpc]
          rw [if_pos hne]
          exact h
        · have hpc : s.ctl.pc c = .idle := by rw [h.ctl]; exact if_neg hc
          simp only [hpc, h.others c hc]
          rw [if_neg]
          · exact h
          · show ¬ s.mem flag.1 = flag.2
            rw [h3, applyAll_not_mem (fun p hp => hf p (by rw [h1]; exact List.mem_append.2 (Or.inl hp)))]
            exact h0
  · refine Or.inr ?_
    cases a with
    | drain c =>
      unfold step
      simp only
      split
      · exact h
      · rename_i x v l hb; exact inv_drain hdj h hb
    | wake c =>
      by_cases hp : s.ctl.pc c = .asleep
      · exact inv_ctl (c := c) (Or.inr rfl) h (by rw [hp]; rintro b (hb | hb) <;> cases hb) (by rw [hp]; intro _ hb; cases hb)
      · have : Counter.step g s.ctl (.wake c) = s.ctl := by
          unfold Counter.step
          simp only
          rw [if_neg (fun hx => hp hx.1)]
        unfold step
        simp only [this]
        exact h
    | go c =>
      unfold step
      simp only
      split
      · exact h
      · rename_i hc
        split
        · rename_i hp
          split
          · exact inv_ctl (c := c) (Or.inl rfl) h (by rw [hp]; rintro b (hb | hb) <;> cases hb) (by rw [hp]; intro _ hb; cases hb)
          · exact h
        · rename_i did hp
          split
          · exact h
          · rename_i he
            exact inv_fetch hdj h hc hp (Decidable.not_not.1 he)
        · rename_i b hp
          split
          · rename_i x k hk; exact inv_load h hp hk
          · rename_i x v k hk; exact inv_store h hp hk
          · rename_i hk
            have hs : Counter.step g s.ctl (.go c) = { s.ctl with pc := upd s.ctl.pc c (.complete b), log := b :: s.ctl.log } := by
              unfold Counter.step; simp only [if_neg hc, hp]
            refine inv_quiet h (Counter.inv_step h.work _) (by rw [hs]) ?_ ?_
            · intro d b'
              rw [hs]
              by_cases hdc : d = c
              · subst hdc; simp only [upd_self, hp, At]; simp
              · simp only [upd_ne _ _ hdc]
            · intro d b' hd
              by_cases hdc : d = c
              · subst hdc; exact hk
              · rw [hs] at hd; simp only [upd_ne _ _ hdc] at hd; exact h.comp d b' hd
        · rename_i b hp
          split
          · exact h
          · rename_i he
            exact inv_report h hc hp (Decidable.not_not.1 he)
        · rename_i n1 n2 n3 n4
          refine inv_ctl (c := c) (Or.inl rfl) h ?_ (fun d hd => n2 d hd)
          rintro b (hb | hb)
          · exact n3 b hb
          · exact n4 b hb

theorem inv2_exec [DecidableEq V] {mem0 : Nat → V} {before : List (Nat × V)} {flag : Nat × V} (hdj : Disjoint g.n prog (applyAll mem0 (before ++ [flag])))
    (hf : ∀ p ∈ before, p.1 ≠ flag.1) (h0 : mem0 flag.1 ≠ flag.2) (acts : List Act) :
    Inv2 g prog mem0 before flag (exec g prog mem0 before flag acts) := by
  unfold exec
  have : ∀ (acts : List Act) (s : St V), Inv2 g prog mem0 before flag s → Inv2 g prog mem0 before flag (acts.foldl (step g prog flag) s) := by
    intro acts
    induction acts with
    | nil => intro s h; exact h
    | cons a acts ih => intro s h; exact ih _ (inv2_step hdj hf h0 h a)
  exact this acts _ (Or.inl ⟨rfl, ⟨[], before, rfl, by simp [init], rfl⟩, fun _ hc => if_neg hc⟩)

/-! ### The tasks one after the other -/

/-- Running code on a memory that agrees on what the code accesses. -/
theorem seq_agree (p : Prog V) : ∀ {m m' : Nat → V}, (∀ a, a ∈ seqLoads p m → m a = m' a) →
    seqLoads p m' = seqLoads p m ∧ seqStores p m' = seqStores p m ∧
    ∀ a, ((∃ v, (a, v) ∈ seqStores p m) → seqRun p m' a = seqRun p m a) ∧ ((∀ v, (a, v) ∉ seqStores p m) → seqRun p m' a = m' a) := by
  induction p with
  | done => intro m m' h; exact ⟨rfl, rfl, fun a => ⟨fun ⟨_, hx⟩ => (by cases hx), fun _ => rfl⟩⟩
  | load b k ih =>
    intro m m' h
    have hb : m b = m' b := h b List.mem_cons_self
    obtain ⟨e1, e2, e3⟩ := ih (m b) (m := m) (m' := m') (fun a ha => h a (List.mem_cons_of_mem _ ha))
    refine ⟨?_, ?_, ?_⟩
    · rw [seqLoads, seqLoads, ← hb, e1]
    · rw [seqStores, seqStores, ← hb, e2]
    · intro a; rw [seqStores, seqRun, seqRun, ← hb]; exact e3 a
  | store b v k ih =>
    intro m m' h
    obtain ⟨e1, e2, e3⟩ := ih (m := fun x => if x = b then v else m x) (m' := fun x => if x = b then v else m' x) (by
      intro a ha
      by_cases hab : a = b
      · simp [hab]
      · simp only [if_neg hab]; exact h a ha)
    refine ⟨e1, ?_, ?_⟩
    · rw [seqStores, seqStores, e2]
    · intro a
      rw [seqStores, seqRun, seqRun]
      refine ⟨fun ha => ?_, fun ha => ?_⟩
      · by_cases hk : ∃ w, (a, w) ∈ seqStores k (fun x => if x = b then v else m x)
        · exact (e3 a).1 hk
        · have hk' : ∀ w, (a, w) ∉ seqStores k (fun x => if x = b then v else m x) := fun w hw => hk ⟨w, hw⟩
          obtain ⟨w, ha⟩ := ha
          rcases List.mem_cons.1 ha with he | ha
          · obtain ⟨rfl, rfl⟩ := Prod.mk.inj he
            rw [(e3 a).2 hk']
            have := (ih (m := fun x => if x = a then w else m x) (m' := fun x => if x = a then w else m x) (fun _ _ => rfl)).2.2 a
            rw [this.2 hk']; simp
          · exact absurd ha (hk' w)
      · have hab : a ≠ b := fun e => ha v (by rw [e]; exact List.mem_cons_self)
        rw [(e3 a).2 (fun w hw => ha w (List.mem_cons_of_mem _ hw))]
        simp [hab]

/-- A run changes only the cells it stores another value to. -/
theorem seq_keeps (p : Prog V) (m0 : Nat → V) (a : Nat) : ∀ m : Nat → V, m a = m0 a → (∀ v, (a, v) ∈ seqStores p m → v = m0 a) → seqRun p m a = m0 a := by
  induction p with
  | done => intro m h _; exact h
  | load b k ih => intro m h hs; exact ih _ m h hs
  | store b v k ih =>
    intro m h hs
    refine ih _ ?_ (fun w hw => hs w (List.mem_cons_of_mem _ hw))
    by_cases hab : a = b
    · simp only [if_pos hab]; exact hs v (by rw [hab]; exact List.mem_cons_self)
    · simp only [if_neg hab]; exact h

theorem run_not_chg {b : Nat} {m : Nat → V} {a : Nat} (hs : ∀ a, a ∈ seqLoads (prog b) m1 → m1 a = m a) (ha : ¬ Chg prog m1 b a) (hm : m a = m1 a) :
    seqRun (prog b) m a = m1 a := by
  obtain ⟨_, e2, _⟩ := seq_agree (prog b) hs
  refine seq_keeps (prog b) m1 a m hm (fun v hv => ?_)
  rw [e2] at hv
  exact Classical.byContradiction fun h => ha ⟨v, hv, h⟩

theorem run_other {b : Nat} {m : Nat → V} {a : Nat} (hs : ∀ a, Acc prog m1 b a → m a = m1 a) (ha : ¬ Chg prog m1 b a) : seqRun (prog b) m a = m a := by
  have hl : ∀ a, a ∈ seqLoads (prog b) m1 → m1 a = m a := fun a h => (hs a (Or.inl h)).symm
  by_cases hex : ∃ v, (a, v) ∈ seqStores (prog b) m1
  · have := hs a (Or.inr hex)
    rw [run_not_chg hl ha this, this]
  · exact ((seq_agree (prog b) hl).2.2 a).2 (fun v hv => hex ⟨v, hv⟩)

theorem serial_eq (hdj : Disjoint g.n prog m1) : ∀ (k b : Nat), b + k = g.n → ∀ (m : Nat → V),
    (∀ b', b ≤ b' → b' < g.n → ∀ a, Acc prog m1 b' a → m a = m1 a) →
    (∀ b', b ≤ b' → b' < g.n → ∀ a, Chg prog m1 b' a → serial prog b k m a = seqRun (prog b') m1 a) ∧
    (∀ a, (∀ b', b ≤ b' → b' < g.n → ¬ Chg prog m1 b' a) → serial prog b k m a = m a) := by
  intro k
  induction k with
  | zero => intro b hb m _; exact ⟨fun b' h1 h2 => by omega, fun a _ => rfl⟩
  | succ k ih =>
    intro b hb m hm
    have hbn : b < g.n := by omega
    have hmb : ∀ a, Acc prog m1 b a → m a = m1 a := hm b (Nat.le_refl _) hbn
    obtain ⟨_, e2, e3⟩ := seq_agree (prog b) (m := m1) (m' := m) (fun a ha => (hmb a (Or.inl ha)).symm)
    have hm' : ∀ b', b + 1 ≤ b' → b' < g.n → ∀ a, Acc prog m1 b' a → seqRun (prog b) m a = m1 a := by
      intro b' h1 h2 a ha
      have hna : ¬ Chg prog m1 b a := fun hx => hdj b b' hbn h2 (by omega) a hx ha
      rw [run_other hmb hna]
      exact hm b' (by omega) h2 a ha
    obtain ⟨f1, f2⟩ := ih (b + 1) (by omega) (seqRun (prog b) m) hm'
    refine ⟨?_, ?_⟩
    · intro b' h1 h2 a ha
      rw [serial]
      by_cases hbb : b' = b
      · subst hbb
        rw [f2 a (fun b'' g1 g2 hx => hdj b' b'' hbn g2 (by omega) a ha hx.acc)]
        obtain ⟨v, hv, _⟩ := ha
        exact (e3 a).1 ⟨v, hv⟩
      · exact f1 b' (by omega) h2 a ha
    · intro a ha
      rw [serial, f2 a (fun b' g1 g2 => ha b' (by omega) g2)]
      exact run_other hmb (ha b (Nat.le_refl _) hbn)

end Pnumpy.TsoCounter
