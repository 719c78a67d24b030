import Verif.Model.TsoWork
import Verif.Proofs.TsoLive
import Verif.Proofs.TsoCounter
/-
Invariant of the store-buffer model of channel-mode calls with arbitrary block code (as Proofs/TsoCounter, with the control of Model/WorkItem).
-/
namespace Pnumpy.TsoWork
open Work
open Pnumpy.Tso (load locked load_eq load_not_mem applyAll applyAll_append applyAll_not_mem At At.inj At.unique At.not_done At.lt step_doneL step_not_at)
open Pnumpy.TsoCounter (Prog seqRun seqLoads seqStores Chg Acc Chg.acc Disjoint load_congr load_snoc seq_agree seq_keeps run_other)

variable {V : Type}

structure InvB (it : Item) (prog : Nat → Prog V) (m1 : Nat → V) (s : St V) : Prop where
  work : Inv it s.ctl
  free : ∀ c, (∀ b, ¬ At (s.ctl.pc c) b) → s.buf c = []
  fresh : ∀ b, b < it.blockLast → b ∉ s.ctl.doneL → (∀ c, ¬ At (s.ctl.pc c) b) → ∀ a, Chg prog m1 b a → s.mem a = m1 a
  fin : ∀ b ∈ s.ctl.doneL, ∀ a, Chg prog m1 b a → s.mem a = seqRun (prog b) m1 a
  rest : ∀ a, (∀ b, b < it.blockLast → ¬ Chg prog m1 b a) → s.mem a = m1 a
  busy : ∀ c b, At (s.ctl.pc c) b → ∃ m, seqRun (s.code c) m = seqRun (prog b) m1 ∧
    (∀ a ∈ seqLoads (s.code c) m, a ∈ seqLoads (prog b) m1) ∧ (∀ p ∈ seqStores (s.code c) m, p ∈ seqStores (prog b) m1) ∧
    (∀ p ∈ s.buf c, p ∈ seqStores (prog b) m1) ∧
    ∀ a, Acc prog m1 b a → load s.mem (s.buf c) a = m a
  comp : ∀ c b, s.ctl.pc c = .complete b → s.code c = .done

variable {it : Item} {prog : Nat → Prog V} {m1 : Nat → V}

theorem inv_quiet {s : St V} {ctl' : Work.St} (h : InvB it prog m1 s) (hw : Inv it ctl') (hd : ctl'.doneL = s.ctl.doneL)
    (hat : ∀ d b, At (ctl'.pc d) b ↔ At (s.ctl.pc d) b) (hcomp : ∀ d b, ctl'.pc d = .complete b → s.code d = .done) :
    InvB it prog m1 { s with ctl := ctl' } where
  work := hw
  free c hc := h.free c (fun b hb => hc b ((hat c b).2 hb))
  fresh b hb hn ha := h.fresh b hb (by rw [← hd]; exact hn) (fun c hc => ha c ((hat c b).2 hc))
  fin b hb := h.fin b (by rw [← hd]; exact hb)
  rest := h.rest
  busy c b hb := h.busy c b ((hat c b).1 hb)
  comp := hcomp

theorem inv_load {s : St V} {c b a : Nat} {k : V → Prog V} (h : InvB it prog m1 s) (hr : s.ctl.pc c = .run b) (hk : s.code c = .load a k) :
    InvB it prog m1 { s with code := upd s.code c (k (load s.mem (s.buf c) a)) } := by
  refine ⟨h.work, h.free, h.fresh, h.fin, h.rest, ?_, ?_⟩
  · intro d b' hd
    by_cases hdc : d = c
    · subst hdc
      obtain ⟨m, e1, e2, e3, e4, e5⟩ := h.busy d b' hd
      rw [hk] at e1 e2 e3
      have hv : load s.mem (s.buf d) a = m a := e5 a (Or.inl (e2 a List.mem_cons_self))
      refine ⟨m, ?_, ?_, ?_, e4, e5⟩
      · simp only [upd_self, hv]; exact e1
      · simp only [upd_self, hv]; exact fun x hx => e2 x (List.mem_cons_of_mem _ hx)
      · simp only [upd_self, hv]; exact e3
    · simp only [upd_ne _ _ hdc]; exact h.busy d b' hd
  · intro d b' hd
    have hdc : d ≠ c := fun e => by subst e; rw [hr] at hd; cases hd
    simp only [upd_ne _ _ hdc]; exact h.comp d b' hd

theorem inv_store {s : St V} {c b a : Nat} {v : V} {k : Prog V} (h : InvB it prog m1 s) (hr : s.ctl.pc c = .run b) (hk : s.code c = .store a v k) :
    InvB it prog m1 { s with buf := upd s.buf c (s.buf c ++ [(a, v)]), code := upd s.code c k } := by
  refine ⟨h.work, ?_, h.fresh, h.fin, h.rest, ?_, ?_⟩
  · intro d hd
    have hdc : d ≠ c := fun e => by subst e; exact hd b (Or.inl hr)
    simp only [upd_ne _ _ hdc]; exact h.free d hd
  · intro d b' hd
    by_cases hdc : d = c
    · subst hdc
      obtain ⟨m, e1, e2, e3, e4, e5⟩ := h.busy d b' hd
      rw [hk] at e1 e2 e3
      simp only [upd_self]
      refine ⟨fun x => if x = a then v else m x, e1, e2, fun x hx => e3 x (List.mem_cons_of_mem _ hx), ?_, ?_⟩
      · intro p hp
        rcases List.mem_append.1 hp with hp | hp
        · exact e4 p hp
        · rw [List.mem_singleton] at hp; subst hp; exact e3 _ List.mem_cons_self
      · intro x hx
        rw [load_snoc, e5 x hx]
    · simp only [upd_ne _ _ hdc]; exact h.busy d b' hd
  · intro d b' hd
    have hdc : d ≠ c := fun e => by subst e; rw [hr] at hd; cases hd
    simp only [upd_ne _ _ hdc]; exact h.comp d b' hd

theorem inv_drain {s : St V} {c a : Nat} {v : V} {l : List (Nat × V)} (wf : WF it) (hdj : Disjoint it.blockLast prog m1) (h : InvB it prog m1 s) (hb : s.buf c = (a, v) :: l) :
    InvB it prog m1 { s with mem := fun x => if x = a then v else s.mem x, buf := upd s.buf c l } := by
  have hat : ∃ b, At (s.ctl.pc c) b := by
    refine Classical.byContradiction fun hno => ?_
    rw [h.free c (fun b hb' => hno ⟨b, hb'⟩)] at hb
    cases hb
  obtain ⟨b, hat⟩ := hat
  have hlt := At.lt wf h.work hat
  obtain ⟨m, e1, e2, e3, e4, e5⟩ := h.busy c b hat
  have ha : (a, v) ∈ seqStores (prog b) m1 := e4 (a, v) (by rw [hb]; exact List.mem_cons_self)
  have hacc : Acc prog m1 b a := Or.inr ⟨v, ha⟩
  by_cases hch : Chg prog m1 b a
  · refine ⟨h.work, ?_, ?_, ?_, ?_, ?_, h.comp⟩
    · intro d hd
      have hdc : d ≠ c := fun e => by subst e; exact hd b hat
      simp only [upd_ne _ _ hdc]; exact h.free d hd
    · intro b' hb' hn hna x hx
      have hne : b ≠ b' := fun e => hna c (by rw [← e]; exact hat)
      have hxa : x ≠ a := fun e => hdj b b' hlt hb' hne a hch (by rw [← e]; exact hx.acc)
      simp only [if_neg hxa]
      exact h.fresh b' hb' hn hna x hx
    · intro b' hb' x hx
      have hne : b ≠ b' := fun e => At.not_done h.work hat (by rw [e]; exact hb')
      have hlt' : b' < it.blockLast := Inv.claimed_lt wf (h.work.logClaimed b' (h.work.doneLog b' hb'))
      have hxa : x ≠ a := fun e => hdj b b' hlt hlt' hne a hch (by rw [← e]; exact hx.acc)
      simp only [if_neg hxa]
      exact h.fin b' hb' x hx
    · intro x hx
      have hxa : x ≠ a := fun e => hx b hlt (by rw [e]; exact hch)
      simp only [if_neg hxa]
      exact h.rest x hx
    · intro d b' hd
      by_cases hdc : d = c
      · subst hdc
        obtain rfl := At.inj hat hd
        simp only [upd_self]
        refine ⟨m, e1, e2, e3, fun p hp => e4 p (by rw [hb]; exact List.mem_cons_of_mem _ hp), fun x hx => ?_⟩
        rw [← e5 x hx, hb]; rfl
      · simp only [upd_ne _ _ hdc]
        obtain ⟨m', f1, f2, f3, f4, f5⟩ := h.busy d b' hd
        have hne : b ≠ b' := fun e => hdc (At.unique h.work (by rw [e]; exact hd) hat)
        have hlt' := At.lt wf h.work hd
        refine ⟨m', f1, f2, f3, f4, fun x hx => ?_⟩
        have hxa : x ≠ a := fun e => hdj b b' hlt hlt' hne a hch (by rw [← e]; exact hx)
        rw [← f5 x hx]
        exact load_congr (if_neg hxa)
  · have hv : v = m1 a := Classical.byContradiction fun hv => hch ⟨v, ha, hv⟩
    have hma : s.mem a = m1 a := h.rest a fun b' hb' hc' => by
      by_cases hbb : b' = b
      · subst hbb; exact hch hc'
      · exact hdj b' b hb' hlt hbb a hc' hacc
    have hmem : (fun x => if x = a then v else s.mem x) = s.mem := by
      funext x
      by_cases hx : x = a
      · subst hx; simp [hv, hma]
      · simp [hx]
    rw [hmem]
    refine ⟨h.work, ?_, h.fresh, h.fin, h.rest, ?_, h.comp⟩
    · intro d hd
      have hdc : d ≠ c := fun e => by subst e; exact hd b hat
      simp only [upd_ne _ _ hdc]; exact h.free d hd
    · intro d b' hd
      by_cases hdc : d = c
      · subst hdc
        obtain rfl := At.inj hat hd
        simp only [upd_self]
        refine ⟨m, e1, e2, e3, fun p hp => e4 p (by rw [hb]; exact List.mem_cons_of_mem _ hp), fun x hx => ?_⟩
        rw [← e5 x hx, hb, load, hmem]
      · simp only [upd_ne _ _ hdc]
        exact h.busy d b' hd

theorem inv_begin {s : St V} {c ch k : Nat} (wf : WF it) (hdj : Disjoint it.blockLast prog m1) (h : InvB it prog m1 s) (hc : ¬ it.wakeup < c) (hr : s.ctl.pc c = .bump ch k)
    (he : s.buf c = []) :
    InvB it prog m1 { s with ctl := Work.step it s.ctl c, code := upd s.code c (prog (it.logical ch k)) } := by
  have hw := inv_step wf h.work c
  have hs : Work.step it s.ctl c = { s.ctl with
      blockNext := s.ctl.blockNext + 1, pc := upd s.ctl.pc c (.run (it.logical ch k)), bumped := it.logical ch k :: s.ctl.bumped } := by
    unfold Work.step; rw [if_neg hc, hr]
  have hh : Holds it (s.ctl.pc c) (it.logical ch k) := by rw [hr]; rfl
  have hlt : it.logical ch k < it.blockLast := Inv.claimed_lt wf (h.work.holdClaimed c _ hh)
  have hnl : it.logical ch k ∉ s.ctl.log := h.work.holdNotLog c _ hh
  have hnc : ∀ b, ¬ At (s.ctl.pc c) b := by
    rintro b (hb | hb) <;> rw [hr] at hb <;> cases hb
  have hna : ∀ d, ¬ At (s.ctl.pc d) (it.logical ch k) := by
    rintro d (hd | hd)
    · have := h.work.holdInj c d _ hh (by rw [hd]; rfl)
      subst this
      exact hnc _ (Or.inl hd)
    · exact hnl (h.work.compLog d _ hd)
  have hnd : it.logical ch k ∉ s.ctl.doneL := fun hd => hnl (h.work.doneLog _ hd)
  generalize it.logical ch k = b at *
  have hdl : (Work.step it s.ctl c).doneL = s.ctl.doneL := by rw [hs]
  have hpc : (Work.step it s.ctl c).pc c = .run b := by rw [hs]; simp only [upd_self]
  have hpo : ∀ d, d ≠ c → (Work.step it s.ctl c).pc d = s.ctl.pc d := by
    intro d hd; rw [hs]; simp only [upd_ne _ _ hd]
  refine ⟨hw, ?_, ?_, fun b' hb' => h.fin b' (by rw [← hdl]; exact hb'), h.rest, ?_, ?_⟩
  · intro d hd
    have hdc : d ≠ c := fun e => by subst e; exact hd b (Or.inl hpc)
    exact h.free d (fun b' hb' => hd b' (by simp only [hpo d hdc]; exact hb'))
  · intro b' hb' hn ha
    refine h.fresh b' hb' (by rw [← hdl]; exact hn) (fun d hd => ?_)
    have hdc : d ≠ c := fun e => by subst e; exact hnc b' hd
    exact ha d (by simp only [hpo d hdc]; exact hd)
  · intro d b' hd
    by_cases hdc : d = c
    · subst hdc
      simp only [hpc] at hd
      obtain rfl := At.inj (Or.inl rfl) hd
      simp only [upd_self]
      refine ⟨m1, rfl, fun _ h => h, fun _ h => h, ?_, ?_⟩
      · rw [he]; intro p hp; cases hp
      · intro x hx
        rw [he]
        show s.mem x = m1 x
        by_cases hx1 : Chg prog m1 b x
        · exact h.fresh b hlt hnd hna x hx1
        · refine h.rest x (fun b' hb' hs' => ?_)
          by_cases hbb : b' = b
          · subst hbb; exact hx1 hs'
          · exact hdj b' b hb' hlt hbb x hs' hx
    · simp only [hpo d hdc] at hd
      simp only [upd_ne _ _ hdc]; exact h.busy d b' hd
  · intro d b' hd
    have hdc : d ≠ c := fun e => by subst e; simp only [hpc] at hd; cases hd
    simp only [hpo d hdc] at hd
    simp only [upd_ne _ _ hdc]; exact h.comp d b' hd

theorem inv_report {s : St V} {c b : Nat} (wf : WF it) (h : InvB it prog m1 s) (hc : ¬ it.wakeup < c) (hr : s.ctl.pc c = .complete b) (he : s.buf c = []) :
    InvB it prog m1 { s with ctl := Work.step it s.ctl c } := by
  have hw := inv_step wf h.work c
  have hs : Work.step it s.ctl c = { s.ctl with
      completed := s.ctl.completed + 1, pc := upd s.ctl.pc c .own, doneL := b :: s.ctl.doneL } := by
    unfold Work.step; rw [if_neg hc, hr]
  have hdl : (Work.step it s.ctl c).doneL = b :: s.ctl.doneL := by rw [hs]
  have hpc : (Work.step it s.ctl c).pc c = .own := by rw [hs]; simp only [upd_self]
  have hpo : ∀ d, d ≠ c → (Work.step it s.ctl c).pc d = s.ctl.pc d := by
    intro d hd; rw [hs]; simp only [upd_ne _ _ hd]
  have hnn : ∀ b', ¬ At ((Work.step it s.ctl c).pc c) b' := by
    rintro b' (hb | hb) <;> rw [hpc] at hb <;> cases hb
  refine ⟨hw, ?_, ?_, ?_, h.rest, ?_, ?_⟩
  · intro d hd
    by_cases hdc : d = c
    · subst hdc; exact he
    · exact h.free d (fun b' hb' => hd b' (by simp only [hpo d hdc]; exact hb'))
  · intro b' hb' hn ha
    simp only [hdl, List.mem_cons, not_or] at hn
    refine h.fresh b' hb' hn.2 (fun d hd => ?_)
    have hdc : d ≠ c := fun e => by
      subst e
      exact hn.1 (At.inj hd (Or.inr hr))
    exact ha d (by simp only [hpo d hdc]; exact hd)
  · intro b' hb' x hx
    simp only [hdl] at hb'
    rcases List.mem_cons.1 hb' with rfl | hb'
    · obtain ⟨m, e1, _, _, _, e5⟩ := h.busy c b' (Or.inr hr)
      rw [h.comp c b' hr] at e1
      have := e5 x hx.acc
      rw [he] at this
      show s.mem x = _
      rw [← e1]; exact this
    · exact h.fin b' hb' x hx
  · intro d b' hd
    have hdc : d ≠ c := fun e => by subst e; exact hnn b' hd
    simp only [hpo d hdc] at hd
    exact h.busy d b' hd
  · intro d b' hd
    have hdc : d ≠ c := fun e => by subst e; exact hnn b' (Or.inr hd)
    simp only [hpo d hdc] at hd
    exact h.comp d b' hd

/-- A control step of a thread that is not in a block and does not begin one. -/
theorem inv_ctl {s : St V} {c : Nat} (wf : WF it) (h : InvB it prog m1 s) (hc : ¬ it.wakeup < c) (h1 : ∀ b, ¬ At (s.ctl.pc c) b) (h2 : ∀ ch p, s.ctl.pc c ≠ .bump ch p) :
    InvB it prog m1 { s with ctl := Work.step it s.ctl c } := by
  have hna := step_not_at (it := it) hc h1 h2
  refine inv_quiet h (inv_step wf h.work c) (step_doneL fun b hb => h1 b (Or.inr hb)) ?_ ?_
  · intro d b
    by_cases hdc : d = c
    · subst hdc; exact ⟨fun hx => absurd hx (hna b), fun hx => absurd hx (h1 b)⟩
    · rw [step_other _ _ hdc]
  · intro d b hd
    have hdc : d ≠ c := fun e => by subst e; exact hna b (Or.inr hd)
    rw [step_other _ _ hdc] at hd
    exact h.comp d b hd

/-- Before the publishing store has reached memory: nobody has started. -/
structure InvA (mem0 : Nat → V) (before : List (Nat × V)) (flag : Nat × V) (s : St V) : Prop where
  ctl : s.ctl = Work.init
  buf : ∃ done left, before = done ++ left ∧ s.buf 0 = left ++ [flag] ∧ s.mem = applyAll mem0 done
  others : ∀ c, c ≠ 0 → s.buf c = []

/-- The whole invariant. -/
def Inv2 (it : Item) (prog : Nat → Prog V) (mem0 : Nat → V) (before : List (Nat × V)) (flag : Nat × V) (s : St V) : Prop :=
  InvA mem0 before flag s ∨ InvB it prog (applyAll mem0 (before ++ [flag])) s

theorem init_not_at (c b : Nat) : ¬ At (Work.init.pc c) b := by
  unfold Work.init At
  simp only
  by_cases hc : c = 0 <;> simp [hc]

theorem invB_start {mem0 : Nat → V} {before : List (Nat × V)} {flag : Nat × V} {s : St V} (h : InvA mem0 before flag s) (hb : s.buf 0 = [flag]) :
    InvB it prog (applyAll mem0 (before ++ [flag])) { s with mem := fun x => if x = flag.1 then flag.2 else s.mem x, buf := upd s.buf 0 [] } := by
  have hm : (fun x => if x = flag.1 then flag.2 else s.mem x) = applyAll mem0 (before ++ [flag]) := by
    obtain ⟨done, left, h1, h2, h3⟩ := h.buf
    rw [hb] at h2
    have hlen := congrArg List.length h2
    have : left = [] := by
      cases left with
      | nil => rfl
      | cons a l => simp at hlen
    subst this
    rw [applyAll_append, h1, List.append_nil, h3]
    rfl
  have hnat : ∀ c b, ¬ At (s.ctl.pc c) b := by rw [h.ctl]; exact init_not_at
  refine ⟨by simp only [h.ctl]; exact inv_init _, ?_, fun b _ _ _ a _ => congrFun hm a, ?_, fun a _ => congrFun hm a, fun c b hc => absurd hc (hnat c b), fun c b hc => absurd (Or.inr hc) (hnat c b)⟩
  · intro c _
    by_cases hc : c = 0
    · subst hc; simp only [upd_self]
    · simp only [upd_ne _ _ hc]; exact h.others c hc
  · intro b hb; simp only [h.ctl] at hb; cases hb

theorem inv2_step [DecidableEq V] {mem0 : Nat → V} {before : List (Nat × V)} {flag : Nat × V} {s : St V} (wf : WF it) (hdj : Disjoint it.blockLast prog (applyAll mem0 (before ++ [flag])))
    (hf : ∀ p ∈ before, p.1 ≠ flag.1) (h0 : mem0 flag.1 ≠ flag.2)
    (h : Inv2 it prog mem0 before flag s) (a : Act) : Inv2 it prog mem0 before flag (step it prog flag s a) := by
  rcases h with h | h
  · obtain ⟨done, left, h1, h2, h3⟩ := h.buf
    cases a with
    | drain c =>
      by_cases hc : c = 0
      · subst hc
        cases left with
        | nil =>
          refine Or.inr ?_
          have := invB_start (it := it) (prog := prog) h h2
          unfold step
          simp only [h2, List.nil_append]
          exact this
        | cons p left =>
          refine Or.inl ?_
          unfold step
          simp only [h2, List.cons_append]
          refine ⟨h.ctl, ⟨done ++ [p], left, by rw [h1]; simp, by simp, ?_⟩, fun c hc => ?_⟩
          · rw [applyAll_append, ← h3]; rfl
          · simp only [upd_ne _ _ hc]; exact h.others c hc
      · refine Or.inl ?_
        unfold step
        simp only [h.others c hc]
        exact h
    | go c =>
      refine Or.inl ?_
      unfold step
      simp only
      split
      · exact h
      · by_cases hc : c = 0
        · subst hc
          have hpc : s.ctl.pc 0 = .own := by rw [h.ctl]; rfl
          have hne : s.buf 0 ≠ [] := by rw [h2]; simp
          simp only [hpc, locked]
          rw [if_pos ⟨trivial, hne⟩]
          exact h
        · have hpc : s.ctl.pc c = .idle := by rw [h.ctl]; exact if_neg hc
          simp only [hpc, h.others c hc]
          rw [if_neg]
          · exact h
          · show ¬ s.mem flag.1 = flag.2
            rw [h3, applyAll_not_mem (fun p hp => hf p (by rw [h1]; exact List.mem_append.2 (Or.inl hp)))]
            exact h0
  · refine Or.inr ?_
    cases a with
    | drain c =>
      unfold step
      simp only
      split
      · exact h
      · rename_i x v l hb; exact inv_drain wf hdj h hb
    | go c =>
      unfold step
      simp only
      split
      · exact h
      · rename_i hc
        split
        · rename_i hp
          split
          · exact inv_ctl wf h hc (by rw [hp]; rintro b (hb | hb) <;> cases hb) (by rw [hp]; intro _ _ hb; cases hb)
          · exact h
        · rename_i b hp
          split
          · rename_i x k hk; exact inv_load h hp hk
          · rename_i x v k hk; exact inv_store h hp hk
          · rename_i hk
            have hs : Work.step it s.ctl c = { s.ctl with pc := upd s.ctl.pc c (.complete b), log := b :: s.ctl.log } := by
              unfold Work.step; rw [if_neg hc, hp]
            refine inv_quiet h (inv_step wf h.work _) (by rw [hs]) ?_ ?_
            · intro d b'
              rw [hs]
              by_cases hdc : d = c
              · subst hdc; simp only [upd_self, hp, At]; simp
              · simp only [upd_ne _ _ hdc]
            · intro d b' hd
              by_cases hdc : d = c
              · subst hdc; exact hk
              · rw [hs] at hd; simp only [upd_ne _ _ hdc] at hd; exact h.comp d b' hd
        · rename_i ch k hp
          split
          · rename_i he; exact inv_begin wf hdj h hc hp he
          · exact h
        · rename_i hi hr hbp
          split
          · exact h
          · rename_i hlk
            by_cases hcomp : ∃ b, s.ctl.pc c = .complete b
            · obtain ⟨b, hb⟩ := hcomp
              have he : s.buf c = [] := by
                by_cases he : s.buf c = []
                · exact he
                · exact absurd ⟨by rw [hb]; rfl, he⟩ hlk
              exact inv_report wf h hc hb he
            · refine inv_ctl wf h hc ?_ hbp
              rintro b (hb | hb)
              · exact hr b hb
              · exact hcomp ⟨b, hb⟩

theorem inv2_exec [DecidableEq V] {mem0 : Nat → V} {before : List (Nat × V)} {flag : Nat × V} (wf : WF it) (hdj : Disjoint it.blockLast prog (applyAll mem0 (before ++ [flag])))
    (hf : ∀ p ∈ before, p.1 ≠ flag.1) (h0 : mem0 flag.1 ≠ flag.2) (acts : List Act) :
    Inv2 it prog mem0 before flag (exec it prog mem0 before flag acts) := by
  unfold exec
  have : ∀ (acts : List Act) (s : St V), Inv2 it prog mem0 before flag s → Inv2 it prog mem0 before flag (acts.foldl (step it prog flag) s) := by
    intro acts
    induction acts with
    | nil => intro s h; exact h
    | cons a acts ih => intro s h; exact ih _ (inv2_step wf hdj hf h0 h a)
  exact this acts _ (Or.inl ⟨rfl, ⟨[], before, rfl, by simp [init], rfl⟩, fun _ hc => if_neg hc⟩)

end Pnumpy.TsoWork
