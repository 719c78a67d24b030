import Verif.Model.Tso
import Verif.Proofs.WorkItem
import Verif.Proofs.WorkItemLive
import Verif.Props.Work
/-
Invariant of the store-buffer model.
-/
namespace Pnumpy.Tso
open Work Props

variable {V : Type}

/-- All the stores of `l` applied to memory. -/
def applyAll (mem : Nat → V) : List (Nat × V) → Nat → V
  | [] => mem
  | (b, v) :: l => applyAll (fun x => if x = b then v else mem x) l

theorem load_eq (l : List (Nat × V)) : ∀ (mem : Nat → V) (a : Nat), load mem l a = applyAll mem l a := by
  induction l with
  | nil => intro mem a; rfl
  | cons p l ih => intro mem a; exact ih _ a

theorem load_not_mem {l : List (Nat × V)} {a : Nat} (h : ∀ p ∈ l, p.1 ≠ a) : ∀ (mem : Nat → V), load mem l a = mem a := by
  induction l with
  | nil => intro mem; rfl
  | cons p l ih =>
    intro mem
    rw [load, ih (fun q hq => h q (List.mem_cons_of_mem _ hq))]
    exact if_neg (fun e => h p List.mem_cons_self e.symm)

theorem applyAll_append (l l' : List (Nat × V)) : ∀ (mem : Nat → V), applyAll mem (l ++ l') = applyAll (applyAll mem l) l' := by
  induction l with
  | nil => intro mem; rfl
  | cons p l ih => intro mem; exact ih _

/-- The result of element `i`, computed from what the caller saw when it made the call. -/
def val (job : Job V) (m1 : Nat → V) (i : Nat) : V := job.f ((job.ins i).map m1)

/-- Thread `c` works on block `b`, or has finished it and is about to report it. -/
def At (p : PC) (b : Nat) : Prop := p = .run b ∨ p = .complete b

/-- The store of element `i` has been issued. -/
def Issued (s : St V) (i : Nat) : Prop :=
  i / 16384 ∈ s.ctl.doneL ∨ ∃ c, At (s.ctl.pc c) (i / 16384) ∧ i % 16384 < s.pos c

/-- What the layout must meet: different elements have different output cells, and no element reads another element's output cell. -/
structure Layout (n : Nat) (job : Job V) : Prop where
  inj : ∀ i j, i < n → j < n → job.out i = job.out j → i = j
  apart : ∀ i j, i < n → j < n → job.out j ∈ job.ins i → i = j

structure InvB (n : Nat) (it : Item) (job : Job V) (flag : Nat × V) (m1 : Nat → V) (s : St V) : Prop where
  work : Inv it s.ctl
  old : ∀ i, i < n → ¬ Issued s i → s.mem (job.out i) = m1 (job.out i)
  new : ∀ i, i < n → Issued s i → s.mem (job.out i) = val job m1 i ∨ ∃ c, (job.out i, val job m1 i) ∈ s.buf c
  mine : ∀ c p, p ∈ s.buf c → ∃ i, i < n ∧ p = (job.out i, val job m1 i) ∧ At (s.ctl.pc c) (i / 16384) ∧ i % 16384 < s.pos c
  rest : ∀ a, (∀ i, i < n → a ≠ job.out i) → s.mem a = m1 a
  len : ∀ c b, s.ctl.pc c = .complete b → s.pos c = it.blockLen b
  le : ∀ c b, s.ctl.pc c = .run b → s.pos c ≤ it.blockLen b

theorem At.unique {it : Item} {s : Work.St} (h : Inv it s) {c d b : Nat} (h1 : At (s.pc c) b) (h2 : At (s.pc d) b) : c = d := by
  rcases h1 with h1 | h1 <;> rcases h2 with h2 | h2
  · exact h.holdInj c d b (by rw [h1]; rfl) (by rw [h2]; rfl)
  · exact absurd (h.compLog d b h2) (h.holdNotLog c b (by rw [h1]; rfl))
  · exact absurd (h.compLog c b h1) (h.holdNotLog d b (by rw [h2]; rfl))
  · exact h.compInj c d b h1 h2

theorem At.not_done {it : Item} {s : Work.St} (h : Inv it s) {c b : Nat} (h1 : At (s.pc c) b) : b ∉ s.doneL := by
  rcases h1 with h1 | h1
  · exact fun hd => h.holdNotLog c b (by rw [h1]; rfl) (h.doneLog b hd)
  · exact h.compFresh c b h1

theorem At.lt {it : Item} (wf : WF it) {s : Work.St} (h : Inv it s) {c b : Nat} (h1 : At (s.pc c) b) : b < it.blockLast := by
  rcases h1 with h1 | h1
  · exact Inv.claimed_lt wf (h.holdClaimed c b (by rw [h1]; rfl))
  · exact Inv.claimed_lt wf (h.logClaimed b (h.compLog c b h1))

theorem At.inj {p : PC} {b b' : Nat} (h1 : At p b) (h2 : At p b') : b = b' := by
  rcases h1 with h1 | h1 <;> rcases h2 with h2 | h2 <;> rw [h1] at h2 <;> first | (cases h2; rfl) | cases h2

variable {n : Nat} {req : Int} {mw zz : Nat} {job : Job V} {flag : Nat × V} {m1 : Nat → V}

/-- A control step of thread `c` that neither ends nor begins nor reports a block. -/
theorem inv_quiet {s : St V} {ctl' : Work.St} {c : Nat} (h : InvB n (ufuncItem n req mw zz) job flag m1 s) (hw : Inv (ufuncItem n req mw zz) ctl')
    (hd : ctl'.doneL = s.ctl.doneL) (ho : ∀ d, d ≠ c → ctl'.pc d = s.ctl.pc d) (h1 : ∀ b, ¬ At (s.ctl.pc c) b) (h2 : ∀ b, ¬ At (ctl'.pc c) b) :
    InvB n (ufuncItem n req mw zz) job flag m1 { s with ctl := ctl' } := by
  have hat : ∀ d b, At (ctl'.pc d) b ↔ At (s.ctl.pc d) b := by
    intro d b
    by_cases hdc : d = c
    · subst hdc; exact ⟨fun h => absurd h (h2 b), fun h => absurd h (h1 b)⟩
    · rw [ho d hdc]
  have hiss : ∀ i, Issued { s with ctl := ctl' } i ↔ Issued s i := by
    intro i; unfold Issued; simp only [hd, hat]
  refine ⟨hw, fun i hi hn => h.old i hi (fun x => hn ((hiss i).2 x)), fun i hi x => h.new i hi ((hiss i).1 x), ?_, h.rest, ?_, ?_⟩
  · intro d p hp
    obtain ⟨i, a, b, c', e⟩ := h.mine d p hp
    exact ⟨i, a, b, (hat d _).2 c', e⟩
  · intro d b hb
    have hdc : d ≠ c := fun e => h2 b (by subst e; exact Or.inr hb)
    exact h.len d b (by rw [← ho d hdc]; exact hb)
  · intro d b hb
    have hdc : d ≠ c := fun e => h2 b (by subst e; exact Or.inl hb)
    exact h.le d b (by rw [← ho d hdc]; exact hb)

theorem step_doneL {it : Item} {s : Work.St} {c : Nat} (h : ∀ b, s.pc c ≠ .complete b) : (Work.step it s c).doneL = s.doneL := by
  unfold Work.step
  split
  · rfl
  · split <;> try rfl
    · split
      · rfl
      · split <;> rfl
    · rename_i b hb; exact absurd hb (h b)
    · split <;> rfl

theorem step_not_at {it : Item} {s : Work.St} {c : Nat} (hc : ¬ it.wakeup < c) (h : ∀ b, ¬ At (s.pc c) b) (hb : ∀ ch p, s.pc c ≠ .bump ch p) (b : Nat) : ¬ At ((Work.step it s c).pc c) b := by
  unfold Work.step
  rw [if_neg hc]
  intro ha
  split at ha
  · simp [At] at ha
  · rename_i he; unfold tryClaim at ha; simp only [upd_self, At] at ha; split at ha <;> simp at ha
  · rename_i ch p he; exact hb ch p he
  · simp only [upd_self, At] at ha; split at ha <;> simp at ha
  · rename_i i he
    split at ha
    · simp [At] at ha
    · split at ha
      · simp [At] at ha
      · unfold tryClaim at ha; simp only [upd_self, At] at ha; split at ha <;> simp at ha
  · rename_i b' he; exact h b' (Or.inl he)
  · rename_i b' he; exact h b' (Or.inr he)
  · simp only [upd_self, At] at ha; split at ha <;> simp at ha
  · split at ha
    · exact h b ha
    · simp [At] at ha
  · exact h b ha

theorem inv_ctl {s : St V} {c : Nat} (h : InvB n (ufuncItem n req mw zz) job flag m1 s) (hc : ¬ (ufuncItem n req mw zz).wakeup < c)
    (h1 : ∀ b, ¬ At (s.ctl.pc c) b) (hb : ∀ ch p, s.ctl.pc c ≠ .bump ch p) :
    InvB n (ufuncItem n req mw zz) job flag m1 { s with ctl := Work.step (ufuncItem n req mw zz) s.ctl c } :=
  inv_quiet h (inv_step (setup_wf n req mw CHUNK true zz) h.work c) (step_doneL (fun b hb => h1 b (Or.inr hb)))
    (fun _ hd => step_other _ _ hd) h1 (step_not_at hc h1 hb)

/-- The element number of position `k` of block `b`. -/
theorem elem {b k : Nat} (hb : b < (ufuncItem n req mw zz).blockLast) (hk : k < (ufuncItem n req mw zz).blockLen b) :
    (ufuncItem n req mw zz).blockSize * b + k < n ∧ ((ufuncItem n req mw zz).blockSize * b + k) / 16384 = b ∧ ((ufuncItem n req mw zz).blockSize * b + k) % 16384 = k := by
  have hbl := blockLen_generic n req mw zz b hb
  rw [blockLast_generic] at hb
  have hbs : (ufuncItem n req mw zz).blockSize = 16384 := rfl
  rw [hbl.1] at hk
  rw [hbs]
  omega

theorem elem_inv {i : Nat} (hi : i < n) : i % 16384 < (ufuncItem n req mw zz).blockLen (i / 16384) := by
  have hbl := blockLen_generic n req mw zz (i / 16384) (by rw [blockLast_generic]; omega)
  rw [hbl.1]
  omega

theorem inv_issue {s : St V} {c b : Nat} (hl : Layout n job) (h : InvB n (ufuncItem n req mw zz) job flag m1 s)
    (hr : s.ctl.pc c = .run b) (hp : s.pos c < (ufuncItem n req mw zz).blockLen b) :
    InvB n (ufuncItem n req mw zz) job flag m1
      { s with
        buf := upd s.buf c (s.buf c ++ [(job.out ((ufuncItem n req mw zz).blockSize * b + s.pos c), job.f ((job.ins ((ufuncItem n req mw zz).blockSize * b + s.pos c)).map (load s.mem (s.buf c))))])
        pos := upd s.pos c (s.pos c + 1) } := by
  have wf := setup_wf n req mw CHUNK true zz
  have hat : At (s.ctl.pc c) b := Or.inl hr
  obtain ⟨e1, e2, e3⟩ := elem (At.lt wf h.work hat) hp
  generalize hi : (ufuncItem n req mw zz).blockSize * b + s.pos c = i at e1 e2 e3
  have hni : ¬ Issued s i := by
    rintro (hd | ⟨d, hd, hlt⟩)
    · exact At.not_done h.work hat (by rw [← e2]; exact hd)
    · rw [e2] at hd
      obtain rfl := At.unique h.work hat hd
      omega
  have hv : job.f ((job.ins i).map (load s.mem (s.buf c))) = val job m1 i := by
    unfold val
    congr 1
    apply List.map_congr_left
    intro a ha
    by_cases hout : ∃ j, j < n ∧ a = job.out j
    · obtain ⟨j, hj, rfl⟩ := hout
      obtain rfl := hl.apart i j e1 hj ha
      rw [load_not_mem, h.old i e1 hni]
      intro p hp' he
      obtain ⟨j, hj, rfl, hja, hjp⟩ := h.mine c p hp'
      obtain rfl := hl.inj j i hj e1 he
      omega
    · rw [load_not_mem, h.rest a (fun j hj e => hout ⟨j, hj, e⟩)]
      intro p hp' he
      obtain ⟨j, hj, rfl, _⟩ := h.mine c p hp'
      exact hout ⟨j, hj, he.symm⟩
  rw [hv]
  have hiss : ∀ j, Issued { s with buf := upd s.buf c (s.buf c ++ [(job.out i, val job m1 i)]), pos := upd s.pos c (s.pos c + 1) } j ↔ Issued s j ∨ j = i := by
    intro j
    constructor
    · rintro (hd | ⟨d, hd, hlt⟩)
      · exact Or.inl (Or.inl hd)
      · by_cases hdc : d = c
        · subst hdc
          simp only [upd_self] at hlt
          have hjb : j / 16384 = b := At.inj hd hat
          by_cases hjp : j % 16384 < s.pos d
          · exact Or.inl (Or.inr ⟨d, hd, hjp⟩)
          · refine Or.inr ?_; omega
        · simp only [upd_ne _ _ hdc] at hlt
          exact Or.inl (Or.inr ⟨d, hd, hlt⟩)
    · rintro ((hd | ⟨d, hd, hlt⟩) | rfl)
      · exact Or.inl hd
      · refine Or.inr ⟨d, hd, ?_⟩
        by_cases hdc : d = c
        · subst hdc; simp only [upd_self]; omega
        · simp only [upd_ne _ _ hdc]; exact hlt
      · refine Or.inr ⟨c, by rw [e2]; exact hat, ?_⟩
        simp only [upd_self]; omega
  refine ⟨h.work, ?_, ?_, ?_, h.rest, ?_, ?_⟩
  · intro j hj hn
    exact h.old j hj (fun x => hn ((hiss j).2 (Or.inl x)))
  · intro j hj hx
    rcases (hiss j).1 hx with hx | rfl
    · rcases h.new j hj hx with hm | ⟨d, hd⟩
      · exact Or.inl hm
      · refine Or.inr ⟨d, ?_⟩
        by_cases hdc : d = c
        · subst hdc; simp only [upd_self]; exact List.mem_append.2 (Or.inl hd)
        · simp only [upd_ne _ _ hdc]; exact hd
    · refine Or.inr ⟨c, ?_⟩
      simp
  · intro d p hp'
    by_cases hdc : d = c
    · subst hdc
      simp only [upd_self] at hp' ⊢
      rcases List.mem_append.1 hp' with hp' | hp'
      · obtain ⟨j, a1, a2, a3, a4⟩ := h.mine d p hp'
        exact ⟨j, a1, a2, a3, by omega⟩
      · rw [List.mem_singleton] at hp'
        exact ⟨i, e1, hp', by rw [e2]; exact hat, by omega⟩
    · simp only [upd_ne _ _ hdc] at hp' ⊢
      exact h.mine d p hp'
  · intro d b' hd
    have hdc : d ≠ c := fun e => by subst e; rw [hr] at hd; cases hd
    simp only [upd_ne _ _ hdc]
    exact h.len d b' hd
  · intro d b' hd
    by_cases hdc : d = c
    · subst hdc
      obtain rfl : b = b' := by rw [hr] at hd; cases hd; rfl
      simp only [upd_self]; omega
    · simp only [upd_ne _ _ hdc]; exact h.le d b' hd

theorem inv_drain {s : St V} {c a : Nat} {v : V} {l : List (Nat × V)} (hl : Layout n job) (h : InvB n (ufuncItem n req mw zz) job flag m1 s)
    (hb : s.buf c = (a, v) :: l) :
    InvB n (ufuncItem n req mw zz) job flag m1 { s with mem := fun x => if x = a then v else s.mem x, buf := upd s.buf c l } := by
  obtain ⟨i, hi, he, hat, hlt⟩ := h.mine c (a, v) (by rw [hb]; exact List.mem_cons_self)
  obtain ⟨rfl, rfl⟩ := Prod.mk.inj he
  have hsub : ∀ d p, p ∈ upd s.buf c l d → p ∈ s.buf d := by
    intro d p hp
    by_cases hdc : d = c
    · subst hdc; rw [upd_self] at hp; rw [hb]; exact List.mem_cons_of_mem _ hp
    · rw [upd_ne _ _ hdc] at hp; exact hp
  have hii : Issued s i := Or.inr ⟨c, hat, hlt⟩
  refine ⟨h.work, ?_, ?_, fun d p hp => h.mine d p (hsub d p hp), ?_, h.len, h.le⟩
  · intro j hj hn
    have hji : j ≠ i := fun e => hn (by subst e; exact hii)
    show (if job.out j = job.out i then val job m1 i else s.mem (job.out j)) = m1 (job.out j)
    rw [if_neg (fun e => hji (hl.inj j i hj hi e))]
    exact h.old j hj hn
  · intro j hj hx
    show (if job.out j = job.out i then val job m1 i else s.mem (job.out j)) = val job m1 j ∨ ∃ d, (job.out j, val job m1 j) ∈ upd s.buf c l d
    by_cases hji : j = i
    · subst hji; exact Or.inl (if_pos rfl)
    · have hne : job.out j ≠ job.out i := fun e => hji (hl.inj j i hj hi e)
      rw [if_neg hne]
      rcases h.new j hj hx with hm | ⟨d, hd⟩
      · exact Or.inl hm
      · refine Or.inr ⟨d, ?_⟩
        by_cases hdc : d = c
        · subst hdc
          rw [upd_self]
          rw [hb] at hd
          rcases List.mem_cons.1 hd with hd | hd
          · exact absurd (Prod.mk.inj hd).1 hne
          · exact hd
        · rw [upd_ne _ _ hdc]; exact hd
  · intro x hx
    show (if x = job.out i then val job m1 i else s.mem x) = m1 x
    rw [if_neg (hx i hi)]
    exact h.rest x hx

theorem inv_finish {s : St V} {c b : Nat} (h : InvB n (ufuncItem n req mw zz) job flag m1 s) (hc : ¬ (ufuncItem n req mw zz).wakeup < c)
    (hr : s.ctl.pc c = .run b) (hp : ¬ s.pos c < (ufuncItem n req mw zz).blockLen b) :
    InvB n (ufuncItem n req mw zz) job flag m1 { s with ctl := Work.step (ufuncItem n req mw zz) s.ctl c } := by
  have hle := h.le c b hr
  have hs : Work.step (ufuncItem n req mw zz) s.ctl c = { s.ctl with pc := upd s.ctl.pc c (.complete b), log := b :: s.ctl.log } := by
    unfold Work.step; rw [if_neg hc, hr]
  have hat : ∀ d b', At ((Work.step (ufuncItem n req mw zz) s.ctl c).pc d) b' ↔ At (s.ctl.pc d) b' := by
    intro d b'
    rw [hs]
    by_cases hdc : d = c
    · subst hdc
      simp only [upd_self, hr, At]
      simp
    · simp only [upd_ne _ _ hdc]
  have hdl : (Work.step (ufuncItem n req mw zz) s.ctl c).doneL = s.ctl.doneL := by rw [hs]
  have hiss : ∀ i, Issued { s with ctl := Work.step (ufuncItem n req mw zz) s.ctl c } i ↔ Issued s i := by
    intro i; unfold Issued; simp only [hdl, hat]
  refine ⟨inv_step (setup_wf n req mw CHUNK true zz) h.work c, fun i hi hn => h.old i hi (fun x => hn ((hiss i).2 x)), fun i hi x => h.new i hi ((hiss i).1 x), ?_, h.rest, ?_, ?_⟩
  · intro d p hp
    obtain ⟨i, a1, a2, a3, a4⟩ := h.mine d p hp
    exact ⟨i, a1, a2, (hat d _).2 a3, a4⟩
  · intro d b' hd
    rw [hs] at hd
    by_cases hdc : d = c
    · subst hdc
      simp only [upd_self, PC.complete.injEq] at hd
      subst hd
      exact Nat.le_antisymm hle (Nat.le_of_not_lt hp)
    · simp only [upd_ne _ _ hdc] at hd
      exact h.len d b' hd
  · intro d b' hd
    rw [hs] at hd
    by_cases hdc : d = c
    · subst hdc; simp only [upd_self] at hd; cases hd
    · simp only [upd_ne _ _ hdc] at hd
      exact h.le d b' hd

theorem inv_begin {s : St V} {c ch k : Nat} (h : InvB n (ufuncItem n req mw zz) job flag m1 s) (hc : ¬ (ufuncItem n req mw zz).wakeup < c)
    (hr : s.ctl.pc c = .bump ch k) (he : s.buf c = []) :
    InvB n (ufuncItem n req mw zz) job flag m1 { s with ctl := Work.step (ufuncItem n req mw zz) s.ctl c, pos := upd s.pos c 0 } := by
  generalize hit : ufuncItem n req mw zz = it at *
  have hs : Work.step it s.ctl c = { s.ctl with
      blockNext := s.ctl.blockNext + 1, pc := upd s.ctl.pc c (.run (it.logical ch k)), bumped := it.logical ch k :: s.ctl.bumped } := by
    unfold Work.step; rw [if_neg hc, hr]
  have hiss : ∀ i, Issued { s with ctl := Work.step it s.ctl c, pos := upd s.pos c 0 } i ↔ Issued s i := by
    intro i
    unfold Issued
    rw [hs]
    constructor
    · rintro (hd | ⟨d, hd, hlt⟩)
      · exact Or.inl hd
      · by_cases hdc : d = c
        · subst hdc; simp only [upd_self] at hlt; omega
        · simp only [upd_ne _ _ hdc] at hd hlt; exact Or.inr ⟨d, hd, hlt⟩
    · rintro (hd | ⟨d, hd, hlt⟩)
      · exact Or.inl hd
      · have hdc : d ≠ c := fun e => by subst e; rw [hr] at hd; rcases hd with hd | hd <;> cases hd
        refine Or.inr ⟨d, ?_, ?_⟩ <;> simp only [upd_ne _ _ hdc]
        · exact hd
        · exact hlt
  refine ⟨?_, fun i hi hn => h.old i hi (fun x => hn ((hiss i).2 x)), fun i hi x => h.new i hi ((hiss i).1 x), ?_, h.rest, ?_, ?_⟩
  · exact inv_step (by rw [← hit]; exact setup_wf n req mw CHUNK true zz) h.work c
  · intro d p hp
    have hdc : d ≠ c := fun e => by subst e; rw [he] at hp; cases hp
    obtain ⟨i, a1, a2, a3, a4⟩ := h.mine d p hp
    refine ⟨i, a1, a2, ?_, ?_⟩
    · rw [hs]; simp only [upd_ne _ _ hdc]; exact a3
    · simp only [upd_ne _ _ hdc]; exact a4
  · intro d b' hd
    rw [hs] at hd
    by_cases hdc : d = c
    · subst hdc; simp only [upd_self] at hd; cases hd
    · simp only [upd_ne _ _ hdc] at hd ⊢; exact h.len d b' hd
  · intro d b' hd
    rw [hs] at hd
    by_cases hdc : d = c
    · subst hdc; simp only [upd_self]; exact Nat.zero_le _
    · simp only [upd_ne _ _ hdc] at hd ⊢; exact h.le d b' hd

theorem inv_report {s : St V} {c b : Nat} (h : InvB n (ufuncItem n req mw zz) job flag m1 s) (hc : ¬ (ufuncItem n req mw zz).wakeup < c)
    (hr : s.ctl.pc c = .complete b) (he : s.buf c = []) :
    InvB n (ufuncItem n req mw zz) job flag m1 { s with ctl := Work.step (ufuncItem n req mw zz) s.ctl c } := by
  have hlen := h.len c b hr
  have hs : Work.step (ufuncItem n req mw zz) s.ctl c = { s.ctl with
      completed := s.ctl.completed + 1, pc := upd s.ctl.pc c .own, doneL := b :: s.ctl.doneL } := by
    unfold Work.step; rw [if_neg hc, hr]
  have hiss : ∀ i, i < n → (Issued { s with ctl := Work.step (ufuncItem n req mw zz) s.ctl c } i ↔ Issued s i) := by
    intro i hi
    unfold Issued
    rw [hs]
    constructor
    · rintro (hd | ⟨d, hd, hlt⟩)
      · rcases List.mem_cons.1 hd with hd | hd
        · refine Or.inr ⟨c, by rw [hd]; exact Or.inr hr, ?_⟩
          rw [hlen, ← hd]; exact elem_inv hi
        · exact Or.inl hd
      · by_cases hdc : d = c
        · subst hdc; simp only [upd_self, At] at hd; simp at hd
        · simp only [upd_ne _ _ hdc] at hd; exact Or.inr ⟨d, hd, hlt⟩
    · rintro (hd | ⟨d, hd, hlt⟩)
      · exact Or.inl (List.mem_cons_of_mem _ hd)
      · by_cases hdc : d = c
        · subst hdc
          refine Or.inl ?_
          rw [At.inj hd (Or.inr hr : At (s.ctl.pc d) b)]
          exact List.mem_cons_self
        · refine Or.inr ⟨d, ?_, hlt⟩
          simp only [upd_ne _ _ hdc]; exact hd
  refine ⟨inv_step (setup_wf n req mw CHUNK true zz) h.work c, fun i hi hn => h.old i hi (fun x => hn ((hiss i hi).2 x)), fun i hi x => h.new i hi ((hiss i hi).1 x), ?_, h.rest, ?_, ?_⟩
  · intro d p hp
    have hdc : d ≠ c := fun e => by subst e; rw [he] at hp; cases hp
    obtain ⟨i, a1, a2, a3, a4⟩ := h.mine d p hp
    refine ⟨i, a1, a2, ?_, a4⟩
    rw [hs]; simp only [upd_ne _ _ hdc]; exact a3
  · intro d b' hd
    rw [hs] at hd
    by_cases hdc : d = c
    · subst hdc; simp only [upd_self] at hd; cases hd
    · simp only [upd_ne _ _ hdc] at hd; exact h.len d b' hd
  · intro d b' hd
    rw [hs] at hd
    by_cases hdc : d = c
    · subst hdc; simp only [upd_self] at hd; cases hd
    · simp only [upd_ne _ _ hdc] at hd; exact h.le d b' hd

/-- Before the publishing store has reached memory: nobody has started. -/
structure InvA (mem0 : Nat → V) (before : List (Nat × V)) (flag : Nat × V) (s : St V) : Prop where
  ctl : s.ctl = Work.init
  buf : ∃ done left, before = done ++ left ∧ s.buf 0 = left ++ [flag] ∧ s.mem = applyAll mem0 done
  others : ∀ c, c ≠ 0 → s.buf c = []

theorem invA_init (mem0 : Nat → V) (before : List (Nat × V)) (flag : Nat × V) : InvA mem0 before flag (init mem0 before flag) :=
  ⟨rfl, ⟨[], before, rfl, by simp [init], rfl⟩, fun _ hc => if_neg hc⟩

theorem invB_start {mem0 : Nat → V} {before : List (Nat × V)} {s : St V} (h : InvA mem0 before flag s) (hb : s.buf 0 = [flag]) :
    InvB n (ufuncItem n req mw zz) job flag (applyAll mem0 (before ++ [flag]))
      { s with mem := fun x => if x = flag.1 then flag.2 else s.mem x, buf := upd s.buf 0 [] } := by
  have hm : (fun x => if x = flag.1 then flag.2 else s.mem x) = applyAll mem0 (before ++ [flag]) := by
    obtain ⟨done, left, h1, h2, h3⟩ := h.buf
    rw [hb] at h2
    have hlen := congrArg List.length h2
    have : left = [] := by
      cases left with
      | nil => rfl
      | cons a l => simp at hlen
    subst this
    rw [applyAll_append, h1, List.append_nil, h3]
    rfl
  have hbuf : ∀ c, upd s.buf 0 ([] : List (Nat × V)) c = [] := by
    intro c
    by_cases hc : c = 0
    · subst hc; rw [upd_self]
    · rw [upd_ne _ _ hc]; exact h.others c hc
  have hnat : ∀ c b, ¬ At (s.ctl.pc c) b := by
    intro c b ha
    rw [h.ctl] at ha
    unfold Work.init At at ha
    simp only at ha
    split at ha <;> simp at ha
  have hni : ∀ i, ¬ Issued { s with mem := fun x => if x = flag.1 then flag.2 else s.mem x, buf := upd s.buf 0 [] } i := by
    rintro i (hd | ⟨c, hd, _⟩)
    · simp only [h.ctl] at hd; cases hd
    · exact hnat c _ hd
  refine ⟨by simp only [h.ctl]; exact inv_init _, fun i _ _ => ?_, fun i _ hx => absurd hx (hni i), ?_, fun a _ => ?_, ?_, ?_⟩
  · exact congrFun hm _
  · intro c p hp
    simp only [hbuf] at hp
    cases hp
  · exact congrFun hm _
  · intro c b hc; exact absurd (Or.inr hc) (hnat c b)
  · intro c b hc; exact absurd (Or.inl hc) (hnat c b)

/-- The whole invariant. -/
def Inv2 (n : Nat) (it : Item) (job : Job V) (mem0 : Nat → V) (before : List (Nat × V)) (flag : Nat × V) (s : St V) : Prop :=
  InvA mem0 before flag s ∨ InvB n it job flag (applyAll mem0 (before ++ [flag])) s

theorem applyAll_not_mem {l : List (Nat × V)} {a : Nat} (h : ∀ p ∈ l, p.1 ≠ a) (mem : Nat → V) : applyAll mem l a = mem a := by
  rw [← load_eq]; exact load_not_mem h mem

theorem inv2_step [DecidableEq V] {mem0 : Nat → V} {before : List (Nat × V)} {s : St V} (hl : Layout n job)
    (hf : ∀ p ∈ before, p.1 ≠ flag.1) (h0 : mem0 flag.1 ≠ flag.2)
    (h : Inv2 n (ufuncItem n req mw zz) job mem0 before flag s) (a : Act) :
    Inv2 n (ufuncItem n req mw zz) job mem0 before flag (step (ufuncItem n req mw zz) job flag s a) := by
  rcases h with h | h
  · obtain ⟨done, left, h1, h2, h3⟩ := h.buf
    cases a with
    | drain c =>
      by_cases hc : c = 0
      · subst hc
        cases left with
        | nil =>
          refine Or.inr ?_
          have := invB_start (n := n) (req := req) (mw := mw) (zz := zz) (job := job) h h2
          unfold step
          simp only [h2, List.nil_append]
          exact this
        | cons p left =>
          refine Or.inl ?_
          unfold step
          simp only [h2, List.cons_append]
          refine ⟨h.ctl, ⟨done ++ [p], left, by rw [h1]; simp, by simp, ?_⟩, fun c hc => ?_⟩
          · rw [applyAll_append, ← h3]; rfl
          · simp only [upd_ne _ _ hc]; exact h.others c hc
      · refine Or.inl ?_
        unfold step
        simp only [h.others c hc]
        exact h
    | go c =>
      refine Or.inl ?_
      unfold step
      simp only
      split
      · exact h
      · by_cases hc : c = 0
        · subst hc
          have hpc : s.ctl.pc 0 = .own := by rw [h.ctl]; rfl
          have hne : s.buf 0 ≠ [] := by rw [h2]; simp
          simp only [hpc, locked]
          rw [if_pos ⟨trivial, hne⟩]
          exact h
        · have hpc : s.ctl.pc c = .idle := by rw [h.ctl]; exact if_neg hc
          simp only [hpc, h.others c hc]
          rw [if_neg]
          · exact h
          · show ¬ s.mem flag.1 = flag.2
            rw [h3, applyAll_not_mem (fun p hp => hf p (by rw [h1]; exact List.mem_append.2 (Or.inl hp)))]
            exact h0
  · refine Or.inr ?_
    cases a with
    | drain c =>
      unfold step
      simp only
      split
      · exact h
      · rename_i x v l hb; exact inv_drain hl h hb
    | go c =>
      unfold step
      simp only
      split
      · exact h
      · rename_i hc
        split
        · rename_i hp
          split
          · exact inv_ctl h hc (by rw [hp]; rintro b (hb | hb) <;> cases hb) (by rw [hp]; intro _ _ hb; cases hb)
          · exact h
        · rename_i b hp
          split
          · rename_i hlt; exact inv_issue hl h hp hlt
          · rename_i hlt; exact inv_finish h hc hp hlt
        · rename_i ch k hp
          split
          · rename_i he; exact inv_begin h hc hp he
          · exact h
        · rename_i hi hr hbp
          split
          · exact h
          · rename_i hlk
            by_cases hcomp : ∃ b, s.ctl.pc c = .complete b
            · obtain ⟨b, hb⟩ := hcomp
              have he : s.buf c = [] := by
                by_cases he : s.buf c = []
                · exact he
                · exact absurd ⟨by rw [hb]; rfl, he⟩ hlk
              exact inv_report h hc hb he
            · refine inv_ctl h hc ?_ hbp
              rintro b (hb | hb)
              · exact hr b hb
              · exact hcomp ⟨b, hb⟩

theorem inv2_exec [DecidableEq V] {mem0 : Nat → V} {before : List (Nat × V)} (hl : Layout n job)
    (hf : ∀ p ∈ before, p.1 ≠ flag.1) (h0 : mem0 flag.1 ≠ flag.2) (acts : List Act) :
    Inv2 n (ufuncItem n req mw zz) job mem0 before flag (exec (ufuncItem n req mw zz) job mem0 before flag acts) := by
  unfold exec
  have : ∀ (acts : List Act) (s : St V), Inv2 n (ufuncItem n req mw zz) job mem0 before flag s →
      Inv2 n (ufuncItem n req mw zz) job mem0 before flag (acts.foldl (step (ufuncItem n req mw zz) job flag) s) := by
    intro acts
    induction acts with
    | nil => intro s h; exact h
    | cons a acts ih => intro s h; exact ih _ (inv2_step hl hf h0 h a)
  exact this acts _ (Or.inl (invA_init mem0 before flag))

end Pnumpy.Tso
