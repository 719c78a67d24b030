import Verif.Spec.TermsWork
import Verif.Model.WorkCounter
import Verif.Proofs.WorkItemLive
namespace Pnumpy.Counter
open Pnumpy.Work (upd upd_self upd_ne nodup_full sumTo sumTo_le sumTo_lt)

theorem upd_cases {f : Nat → PC} {c d : Nat} {q r : PC} (h : upd f c q d = r) :
    (d = c ∧ q = r) ∨ (d ≠ c ∧ f d = r) := by
  unfold upd at h; split at h <;> simp_all

/-- tickets below this bound are useful -/
def Cfg.N (g : Cfg) : Nat := if g.skip0 then g.n + 1 else g.n

theorem task_some_lt {g : Cfg} {k b : Nat} (h : g.task k = some b) : b < g.n ∧ k < g.N := by
  unfold Cfg.task at h; unfold Cfg.N
  split at h
  · split at h
    · split at h
      · cases h
      · cases h; simp_all; omega
    · cases h
  · split at h
    · cases h; simp_all
    · cases h

theorem task_inj {g : Cfg} {k l b : Nat} (h1 : g.task k = some b) (h2 : g.task l = some b) : k = l := by
  unfold Cfg.task at h1 h2
  split at h1
  · rename_i hs
    simp only [hs, if_true] at h2
    by_cases e1 : k < g.n + 1 <;> by_cases e2 : l < g.n + 1 <;> by_cases e3 : k = 0 <;>
      by_cases e4 : l = 0 <;> simp [e1, e2, e3, e4] at h1 h2
    omega
  · rename_i hs
    simp only [hs] at h2
    split at h1 <;> simp_all

theorem task_surj {g : Cfg} {b : Nat} (h : b < g.n) : ∃ k, k < g.N ∧ g.task k = some b := by
  unfold Cfg.task Cfg.N
  by_cases hs : g.skip0
  · refine ⟨b + 1, by simp [hs]; omega, ?_⟩
    simp [hs, h]
  · exact ⟨b, by simp [hs, h], by simp [hs, h]⟩

theorem task_none {g : Cfg} {k : Nat} (h : g.task k = none) : (g.skip0 = true ∧ k = 0) ∨ g.N ≤ k := by
  unfold Cfg.task at h; unfold Cfg.N
  split at h
  · split at h
    · split at h
      · exact Or.inl ⟨by assumption, by assumption⟩
      · cases h
    · right; simp_all
  · split at h
    · cases h
    · right; simp_all

def Claimed (g : Cfg) (s : St) (b : Nat) : Prop := ∃ k, k < s.next ∧ g.task k = some b

structure Inv (g : Cfg) (s : St) : Prop where
  logNodup : s.log.Nodup
  logClaimed : ∀ b ∈ s.log, Claimed g s b
  runClaimed : ∀ c b, s.pc c = .run b → Claimed g s b
  runNotLog : ∀ c b, s.pc c = .run b → b ∉ s.log
  runInj : ∀ c d b, s.pc c = .run b → s.pc d = .run b → c = d
  cov : ∀ b, Claimed g s b → b ∈ s.log ∨ ∃ c, c ≤ g.wakeup ∧ s.pc c = .run b
  doneLen : s.doneL.length = s.completed
  doneNodup : s.doneL.Nodup
  doneLog : ∀ b ∈ s.doneL, b ∈ s.log
  compLog : ∀ c b, s.pc c = .complete b → b ∈ s.log
  compFresh : ∀ c b, s.pc c = .complete b → b ∉ s.doneL
  compInj : ∀ c d b, s.pc c = .complete b → s.pc d = .complete b → c = d
  logCov : ∀ b ∈ s.log, b ∈ s.doneL ∨ ∃ c, c ≤ g.wakeup ∧ s.pc c = .complete b
  retDone : ∀ c, s.pc c = .returned → g.n ≤ s.completed
  retWhy : ∀ c, (s.pc c = .wait ∨ s.pc c = .returned ∨ s.pc c = .asleep ∨ ∃ d, s.pc c = .ret d) →
    (g.skip0 = true ∧ s.zeroBy = some c) ∨ g.N ≤ s.next
  zero : s.zeroBy = none ↔ s.next = 0
  main : s.pc 0 ≠ .idle ∧ s.pc 0 ≠ .asleep
  waitMain : ∀ c, (s.pc c = .wait ∨ s.pc c = .returned) → c = 0

theorem inv_init (g : Cfg) : Inv g init := by
  have hpc : ∀ c, init.pc c = .fetch false ∨ init.pc c = .idle := by
    intro c; by_cases h : c = 0 <;> simp [init, h]
  have hcl : ∀ b, ¬ Claimed g init b := by
    rintro b ⟨k, h, _⟩; simp [init] at h
  constructor
  case main => simp [init]
  all_goals first
    | simp [init]; done
    | (intros; exfalso; simp_all; done)
    | (intro c; rcases hpc c with h | h <;> simp [h]; done)

theorem inv_silent {g : Cfg} {s : St} {c : Nat} {q : PC} (h : Inv g s)
    (hp : ∀ b, s.pc c ≠ .run b) (hp2 : ∀ b, s.pc c ≠ .complete b)
    (hq : ∀ b, q ≠ .run b) (hq2 : ∀ b, q ≠ .complete b)
    (hretd : q = .returned → g.n ≤ s.completed)
    (hwhy : (q = .wait ∨ q = .returned ∨ q = .asleep ∨ ∃ d, q = .ret d) →
      (g.skip0 = true ∧ s.zeroBy = some c) ∨ g.N ≤ s.next)
    (hmi : c = 0 → q ≠ .idle ∧ q ≠ .asleep)
    (hw : (q = .wait ∨ q = .returned) → c = 0) :
    Inv g { s with pc := upd s.pc c q } := by
  have H : ∀ d b, upd s.pc c q d = .run b ↔ s.pc d = .run b := by
    intro d b
    by_cases e : d = c
    · subst e; simp [hp, hq]
    · simp [e]
  have K : ∀ d b, upd s.pc c q d = .complete b ↔ s.pc d = .complete b := by
    intro d b
    by_cases e : d = c
    · subst e; simp [hp2, hq2]
    · simp [e]
  constructor
  · exact h.logNodup
  · exact h.logClaimed
  · exact fun d b hd => h.runClaimed d b ((H d b).mp hd)
  · exact fun d b hd => h.runNotLog d b ((H d b).mp hd)
  · exact fun d e b hd he => h.runInj d e b ((H d b).mp hd) ((H e b).mp he)
  · intro b hb
    rcases h.cov b hb with h1 | ⟨d, hd, h1⟩
    · exact Or.inl h1
    · exact Or.inr ⟨d, hd, (H d b).mpr h1⟩
  · exact h.doneLen
  · exact h.doneNodup
  · exact h.doneLog
  · exact fun d b hd => h.compLog d b ((K d b).mp hd)
  · exact fun d b hd => h.compFresh d b ((K d b).mp hd)
  · exact fun d e b hd he => h.compInj d e b ((K d b).mp hd) ((K e b).mp he)
  · intro b hb
    rcases h.logCov b hb with h1 | ⟨d, hd, h1⟩
    · exact Or.inl h1
    · exact Or.inr ⟨d, hd, (K d b).mpr h1⟩
  · intro d hd
    rcases upd_cases hd with ⟨rfl, h2⟩ | ⟨_, h2⟩
    · exact hretd h2
    · exact h.retDone d h2
  · intro d hd
    by_cases e : d = c
    · subst e; simp only [upd_self] at hd; exact hwhy hd
    · simp only [upd_ne _ _ e] at hd; exact h.retWhy d hd
  · exact h.zero
  · by_cases e : 0 = c
    · subst e; simp only [upd_self]; exact hmi rfl
    · simp only [upd_ne _ _ e]; exact h.main
  · intro d hd
    by_cases e : d = c
    · subst e; simp only [upd_self] at hd; exact hw hd
    · simp only [upd_ne _ _ e] at hd; exact h.waitMain d hd

theorem inv_fetch {g : Cfg} {s : St} {c : Nat} {did : Bool} (h : Inv g s) (hc : c ≤ g.wakeup)
    (hp : s.pc c = .fetch did) :
    Inv g { s with
          next := s.next + 1
          zeroBy := if s.next = 0 then some c else s.zeroBy
          pc := upd s.pc c (match g.task s.next with
                            | some b => .run b
                            | none => .ret did) } := by
  have CM : ∀ {z pc' b}, Claimed g s b → Claimed g { s with next := s.next + 1, zeroBy := z, pc := pc' } b := by
    rintro z pc' b ⟨k, h1, h2⟩; exact ⟨k, Nat.lt_succ_of_lt h1, h2⟩
  have why : ∀ d, (g.skip0 = true ∧ s.zeroBy = some d) ∨ g.N ≤ s.next →
      (g.skip0 = true ∧ (if s.next = 0 then some c else s.zeroBy) = some d) ∨ g.N ≤ s.next + 1 := by
    intro d hd
    rcases hd with ⟨h1, h2⟩ | hd
    · have hn : s.next ≠ 0 := by
        intro e; have := h.zero.mpr e; rw [this] at h2; cases h2
      left; simp [hn, h1, h2]
    · right; omega
  have zr : (if s.next = 0 then some c else s.zeroBy) = none ↔ s.next + 1 = 0 := by
    have := h.zero
    by_cases e : s.next = 0 <;> simp [e, this]
  cases ht : g.task s.next with
  | some b =>
    have fresh : ¬ Claimed g s b := by
      rintro ⟨k, h1, h2⟩; have := task_inj ht h2; omega
    have only : ∀ {z pc' b'}, Claimed g { s with next := s.next + 1, zeroBy := z, pc := pc' } b' →
        Claimed g s b' ∨ b' = b := by
      rintro z pc' b' ⟨k, h1, h2⟩
      by_cases e : k = s.next
      · subst e; rw [ht] at h2; cases h2; exact Or.inr rfl
      · exact Or.inl ⟨k, by simp at h1; omega, h2⟩
    have R : ∀ d b', upd s.pc c (.run b) d = .run b' → (d = c ∧ b' = b) ∨ (d ≠ c ∧ s.pc d = .run b') := by
      intro d b' hd
      rcases upd_cases hd with ⟨h1, h2⟩ | h2
      · cases h2; exact Or.inl ⟨h1, rfl⟩
      · exact Or.inr h2
    have O : ∀ d q, upd s.pc c (.run b) d = q → (∀ b, q ≠ .run b) → s.pc d = q ∧ d ≠ c := by
      intro d q hd hq
      rcases upd_cases hd with ⟨_, h2⟩ | ⟨h1, h2⟩
      · exact absurd h2.symm (hq _)
      · exact ⟨h2, h1⟩
    constructor
    · exact h.logNodup
    · exact fun b hb => CM (h.logClaimed b hb)
    · intro d b' hd
      rcases R d b' hd with ⟨_, rfl⟩ | ⟨_, h2⟩
      · exact ⟨s.next, Nat.lt_succ_self _, ht⟩
      · exact CM (h.runClaimed d b' h2)
    · intro d b' hd hm
      rcases R d b' hd with ⟨_, rfl⟩ | ⟨_, h2⟩
      · exact fresh (h.logClaimed _ hm)
      · exact h.runNotLog d b' h2 hm
    · intro d e b' hd he
      rcases R d b' hd with ⟨rfl, hb⟩ | ⟨_, h2⟩ <;> rcases R e b' he with ⟨rfl, hb'⟩ | ⟨_, h2'⟩
      · rfl
      · subst hb; exact absurd (h.runClaimed e _ h2') fresh
      · subst hb'; exact absurd (h.runClaimed d _ h2) fresh
      · exact h.runInj d e b' h2 h2'
    · intro b' hb
      rcases only hb with hb | rfl
      · rcases h.cov b' hb with h1 | ⟨d, hd, h1⟩
        · exact Or.inl h1
        · have : d ≠ c := by rintro rfl; rw [hp] at h1; cases h1
          exact Or.inr ⟨d, hd, by simpa [this] using h1⟩
      · exact Or.inr ⟨c, hc, by simp⟩
    · exact h.doneLen
    · exact h.doneNodup
    · exact h.doneLog
    · exact fun d b hd => h.compLog d b (O d _ hd (by simp)).1
    · exact fun d b hd => h.compFresh d b (O d _ hd (by simp)).1
    · exact fun d e b hd he => h.compInj d e b (O d _ hd (by simp)).1 (O e _ he (by simp)).1
    · intro b' hb
      rcases h.logCov b' hb with h1 | ⟨d, hd, h1⟩
      · exact Or.inl h1
      · have : d ≠ c := by rintro rfl; rw [hp] at h1; cases h1
        exact Or.inr ⟨d, hd, by simpa [this] using h1⟩
    · exact fun d hd => h.retDone d (O d _ hd (by simp)).1
    · intro d hd
      have hd' : s.pc d = .wait ∨ s.pc d = .returned ∨ s.pc d = .asleep ∨ ∃ e, s.pc d = .ret e := by
        rcases hd with hd | hd | hd | ⟨e, hd⟩
        · exact Or.inl (O d _ hd (by simp)).1
        · exact Or.inr (Or.inl (O d _ hd (by simp)).1)
        · exact Or.inr (Or.inr (Or.inl (O d _ hd (by simp)).1))
        · exact Or.inr (Or.inr (Or.inr ⟨e, (O d _ hd (by simp)).1⟩))
      exact why d (h.retWhy d hd')
    · exact zr
    · by_cases e : 0 = c
      · subst e; simp
      · simp only [upd_ne _ _ e]; exact h.main
    · intro d hd
      refine h.waitMain d ?_
      rcases hd with hd | hd
      · exact Or.inl (O d _ hd (by simp)).1
      · exact Or.inr (O d _ hd (by simp)).1
  | none =>
    have back : ∀ {z pc' b'}, Claimed g { s with next := s.next + 1, zeroBy := z, pc := pc' } b' →
        Claimed g s b' := by
      rintro z pc' b' ⟨k, h1, h2⟩
      by_cases e : k = s.next
      · subst e; rw [ht] at h2; cases h2
      · exact ⟨k, by simp at h1; omega, h2⟩
    have base : Inv g { s with
          next := s.next + 1
          zeroBy := if s.next = 0 then some c else s.zeroBy } := by
      constructor
      · exact h.logNodup
      · exact fun b hb => CM (h.logClaimed b hb)
      · exact fun d b hd => CM (h.runClaimed d b hd)
      · exact h.runNotLog
      · exact h.runInj
      · exact fun b hb => h.cov b (back hb)
      · exact h.doneLen
      · exact h.doneNodup
      · exact h.doneLog
      · exact h.compLog
      · exact h.compFresh
      · exact h.compInj
      · exact h.logCov
      · exact h.retDone
      · exact fun d hd => why d (h.retWhy d hd)
      · exact zr
      · exact h.main
      · exact h.waitMain
    refine inv_silent (q := .ret did) base (by simp [hp]) (by simp [hp]) (by simp) (by simp) (by simp) ?_
      (by simp) (by simp)
    intro _
    rcases task_none ht with ⟨h1, h2⟩ | h1
    · left; simp [h1, h2]
    · right; simp; omega

theorem inv_run {g : Cfg} {s : St} {c b : Nat} (h : Inv g s) (hc : c ≤ g.wakeup)
    (hp : s.pc c = .run b) :
    Inv g { s with pc := upd s.pc c (.complete b), log := b :: s.log } := by
  have nl := h.runNotLog c b hp
  have R : ∀ d b', upd s.pc c (.complete b) d = .run b' → d ≠ c ∧ s.pc d = .run b' := by
    intro d b' hd
    rcases upd_cases hd with ⟨_, h2⟩ | h2
    · cases h2
    · exact h2
  have K : ∀ d b', upd s.pc c (.complete b) d = .complete b' →
      (d = c ∧ b' = b) ∨ (d ≠ c ∧ s.pc d = .complete b') := by
    intro d b' hd
    rcases upd_cases hd with ⟨h1, h2⟩ | h2
    · cases h2; exact Or.inl ⟨h1, rfl⟩
    · exact Or.inr h2
  have O : ∀ d q, upd s.pc c (.complete b) d = q → (∀ b, q ≠ .complete b) → s.pc d = q := by
    intro d q hd hq
    rcases upd_cases hd with ⟨_, h2⟩ | ⟨h1, h2⟩
    · exact absurd h2.symm (hq _)
    · exact h2
  constructor
  · exact List.nodup_cons.mpr ⟨nl, h.logNodup⟩
  · intro b' hb
    rcases List.mem_cons.mp hb with rfl | hb
    · exact h.runClaimed c _ hp
    · exact h.logClaimed b' hb
  · exact fun d b hd => h.runClaimed d b (R d b hd).2
  · intro d b' hd hmem
    obtain ⟨h1, h2⟩ := R d b' hd
    rcases List.mem_cons.mp hmem with rfl | hm
    · exact h1 (h.runInj d c _ h2 hp)
    · exact h.runNotLog d b' h2 hm
  · exact fun d e b hd he => h.runInj d e b (R d b hd).2 (R e b he).2
  · intro b' hb
    rcases h.cov b' hb with h1 | ⟨d, hd, h1⟩
    · exact Or.inl (List.mem_cons_of_mem _ h1)
    · by_cases e : d = c
      · subst e; rw [hp] at h1; cases h1; exact Or.inl List.mem_cons_self
      · exact Or.inr ⟨d, hd, by simpa [e] using h1⟩
  · exact h.doneLen
  · exact h.doneNodup
  · exact fun b hb => List.mem_cons_of_mem _ (h.doneLog b hb)
  · intro d b' hd
    rcases K d b' hd with ⟨_, rfl⟩ | ⟨_, h2⟩
    · exact List.mem_cons_self
    · exact List.mem_cons_of_mem _ (h.compLog d b' h2)
  · intro d b' hd hmem
    rcases K d b' hd with ⟨_, rfl⟩ | ⟨_, h2⟩
    · exact nl (h.doneLog _ hmem)
    · exact h.compFresh d b' h2 hmem
  · intro d e b' hd he
    rcases K d b' hd with ⟨rfl, hb⟩ | ⟨hd1, h2⟩ <;> rcases K e b' he with ⟨rfl, hb'⟩ | ⟨he1, h2'⟩
    · rfl
    · subst hb; exact absurd (h.compLog e _ h2') nl
    · subst hb'; exact absurd (h.compLog d _ h2) nl
    · exact h.compInj d e b' h2 h2'
  · intro b' hb
    rcases List.mem_cons.mp hb with rfl | hb
    · exact Or.inr ⟨c, hc, by simp⟩
    · rcases h.logCov b' hb with h1 | ⟨d, hd, h1⟩
      · exact Or.inl h1
      · have : d ≠ c := by rintro rfl; rw [hp] at h1; cases h1
        exact Or.inr ⟨d, hd, by simpa [this] using h1⟩
  · exact fun d hd => h.retDone d (O d _ hd (by simp))
  · intro d hd
    refine h.retWhy d ?_
    rcases hd with hd | hd | hd | ⟨e, hd⟩
    · exact Or.inl (O d _ hd (by simp))
    · exact Or.inr (Or.inl (O d _ hd (by simp)))
    · exact Or.inr (Or.inr (Or.inl (O d _ hd (by simp))))
    · exact Or.inr (Or.inr (Or.inr ⟨e, (O d _ hd (by simp))⟩))
  · exact h.zero
  · by_cases e : 0 = c
    · subst e; simp
    · simp only [upd_ne _ _ e]; exact h.main
  · intro d hd
    refine h.waitMain d ?_
    rcases hd with hd | hd
    · exact Or.inl (O d _ hd (by simp))
    · exact Or.inr (O d _ hd (by simp))

theorem inv_complete {g : Cfg} {s : St} {c b : Nat} (h : Inv g s)
    (hp : s.pc c = .complete b) :
    Inv g { s with completed := s.completed + 1, pc := upd s.pc c (.fetch true), doneL := b :: s.doneL } := by
  have O : ∀ d q, upd s.pc c (.fetch true) d = q → (q ≠ .fetch true) → s.pc d = q ∧ d ≠ c := by
    intro d q hd hq
    rcases upd_cases hd with ⟨_, h2⟩ | ⟨h1, h2⟩
    · exact absurd h2.symm hq
    · exact ⟨h2, h1⟩
  constructor
  · exact h.logNodup
  · exact h.logClaimed
  · exact fun d b hd => h.runClaimed d b (O d _ hd (by simp)).1
  · exact fun d b hd => h.runNotLog d b (O d _ hd (by simp)).1
  · exact fun d e b hd he => h.runInj d e b (O d _ hd (by simp)).1 (O e _ he (by simp)).1
  · intro b' hb
    rcases h.cov b' hb with h1 | ⟨d, hd, h1⟩
    · exact Or.inl h1
    · have : d ≠ c := by rintro rfl; rw [hp] at h1; cases h1
      exact Or.inr ⟨d, hd, by simpa [this] using h1⟩
  · simp [h.doneLen]
  · exact List.nodup_cons.mpr ⟨h.compFresh c b hp, h.doneNodup⟩
  · intro b' hb
    rcases List.mem_cons.mp hb with rfl | hb
    · exact h.compLog c _ hp
    · exact h.doneLog b' hb
  · exact fun d b hd => h.compLog d b (O d _ hd (by simp)).1
  · intro d b' hd hmem
    obtain ⟨h1, h2⟩ := O d _ hd (by simp)
    rcases List.mem_cons.mp hmem with rfl | hm
    · exact h2 (h.compInj d c _ h1 hp)
    · exact h.compFresh d b' h1 hm
  · exact fun d e b hd he => h.compInj d e b (O d _ hd (by simp)).1 (O e _ he (by simp)).1
  · intro b' hb
    rcases h.logCov b' hb with h1 | ⟨d, hd, h1⟩
    · exact Or.inl (List.mem_cons_of_mem _ h1)
    · by_cases e : d = c
      · subst e; rw [hp] at h1; cases h1; exact Or.inl List.mem_cons_self
      · exact Or.inr ⟨d, hd, by simpa [e] using h1⟩
  · exact fun d hd => Nat.le_succ_of_le (h.retDone d (O d _ hd (by simp)).1)
  · intro d hd
    refine h.retWhy d ?_
    rcases hd with hd | hd | hd | ⟨e, hd⟩
    · exact Or.inl (O d _ hd (by simp)).1
    · exact Or.inr (Or.inl (O d _ hd (by simp)).1)
    · exact Or.inr (Or.inr (Or.inl (O d _ hd (by simp)).1))
    · exact Or.inr (Or.inr (Or.inr ⟨e, (O d _ hd (by simp)).1⟩))
  · exact h.zero
  · by_cases e : 0 = c
    · subst e; simp
    · simp only [upd_ne _ _ e]; exact h.main
  · intro d hd
    refine h.waitMain d ?_
    rcases hd with hd | hd
    · exact Or.inl (O d _ hd (by simp)).1
    · exact Or.inr (O d _ hd (by simp)).1

theorem inv_step {g : Cfg} {s : St} (h : Inv g s) (a : Act) : Inv g (step g s a) := by
  cases a with
  | wake c =>
    unfold step; simp only
    split
    · rename_i hp
      exact inv_silent h (by simp [hp]) (by simp [hp]) (by simp) (by simp) (by simp) (by simp)
        (fun e => absurd e hp.2) (by simp)
    · exact h
  | go c =>
    unfold step; simp only
    split
    · exact h
    rename_i hc
    have hc : c ≤ g.wakeup := Nat.le_of_not_lt hc
    match hp : s.pc c with
    | .idle => exact inv_silent h (by simp [hp]) (by simp [hp]) (by simp) (by simp) (by simp) (by simp)
                 (by simp) (by simp)
    | .fetch did => exact inv_fetch h hc hp
    | .run b => exact inv_run h hc hp
    | .complete b => exact inv_complete h hp
    | .ret did =>
      have hw := h.retWhy c (Or.inr (Or.inr (Or.inr ⟨did, hp⟩)))
      refine inv_silent h (by simp [hp]) (by simp [hp]) ?_ ?_ ?_ (fun _ => hw) ?_ ?_
      all_goals (by_cases e : c = 0 <;> cases did <;> simp [e])
    | .asleep => exact h
    | .wait =>
      have hw := h.retWhy c (Or.inl hp)
      simp only
      split
      · exact h
      · exact inv_silent h (by simp [hp]) (by simp [hp]) (by simp) (by simp) (fun _ => by omega)
          (fun _ => hw) (by simp) (fun _ => h.waitMain c (Or.inl hp))
    | .returned => exact h

theorem inv_exec (g : Cfg) (sched : List Act) : Inv g (exec g sched) := by
  have : ∀ (l : List Act) s, Inv g s → Inv g (l.foldl (step g) s) := by
    intro l
    induction l with
    | nil => exact fun s h => h
    | cons c l ih => exact fun s h => ih _ (inv_step h c)
  exact this sched _ (inv_init g)

theorem inv_trace (g : Cfg) (σ : Nat → Act) : ∀ t, Inv g (trace g σ t)
  | 0 => inv_init g
  | t + 1 => inv_step (inv_trace g σ t) _

theorem Inv.claimed_lt {g : Cfg} {s : St} {b : Nat} (hb : Claimed g s b) : b < g.n := by
  obtain ⟨k, _, h⟩ := hb; exact (task_some_lt h).1

/-! ### Liveness -/

def mrank : PC → Nat
  | .idle => 5
  | .run _ => 7
  | .complete _ => 6
  | .fetch _ => 4
  | .ret _ => 3
  | _ => 0

/-- thread `w` has stopped drawing tickets -/
def PC.stopped : PC → Bool
  | .ret _ => true
  | .wait => true
  | .returned => true
  | .asleep => true
  | _ => false

def M (g : Cfg) (w : Nat) (s : St) : Nat := (g.N - s.next) * 10 + mrank (s.pc w)

theorem step_other (g : Cfg) (s : St) {c d : Nat} (h : d ≠ c) (a : Act) (ha : a = .go c ∨ a = .wake c) :
    (step g s a).pc d = s.pc d := by
  rcases ha with rfl | rfl
  · unfold step; simp only
    split
    · rfl
    split <;> (try simp [h])
    split <;> simp [h]
  · unfold step; simp only
    split <;> simp [h]

theorem next_mono (g : Cfg) (s : St) (a : Act) : s.next ≤ (step g s a).next := by
  cases a with
  | wake c => unfold step; simp only; split <;> exact Nat.le_refl _
  | go c =>
    unfold step; simp only
    split
    · exact Nat.le_refl _
    split <;> first
      | exact Nat.le_refl _
      | exact Nat.le_succ _
      | (split <;> exact Nat.le_refl _)

theorem completed_mono (g : Cfg) (s : St) (a : Act) : s.completed ≤ (step g s a).completed := by
  cases a with
  | wake c => unfold step; simp only; split <;> exact Nat.le_refl _
  | go c =>
    unfold step; simp only
    split
    · exact Nat.le_refl _
    split <;> first
      | exact Nat.le_refl _
      | exact Nat.le_succ _
      | (split <;> exact Nat.le_refl _)

theorem zeroBy_stable {g : Cfg} {s : St} (h : Inv g s) (a : Act) {x : Nat} (hx : s.zeroBy = some x) :
    (step g s a).zeroBy = some x := by
  cases a with
  | wake c => unfold step; simp only; split <;> exact hx
  | go c =>
    unfold step; simp only
    split
    · exact hx
    split <;> first
      | exact hx
      | (split <;> exact hx)
      | skip
    have hn : s.next ≠ 0 := by
      intro e; have := h.zero.mpr e; rw [this] at hx; cases hx
    simp [hn, hx]

theorem M_other (g : Cfg) (s : St) {w : Nat} (a : Act) (h : a ≠ .go w)
    (hns : (s.pc w).stopped = false) : M g w (step g s a) ≤ M g w s := by
  have hn := next_mono g s a
  have hpc : (step g s a).pc w = s.pc w := by
    cases a with
    | go c =>
      have : w ≠ c := by rintro rfl; exact h rfl
      exact step_other g s this _ (Or.inl rfl)
    | wake c =>
      by_cases e : w = c
      · subst e
        unfold step; simp only
        split
        · rename_i hp; rw [hp.1] at hns; simp [PC.stopped] at hns
        · rfl
      · exact step_other g s e _ (Or.inr rfl)
  unfold M; rw [hpc]
  omega

theorem M_self {g : Cfg} {s : St} {w : Nat} (hw : w ≤ g.wakeup) (hns : (s.pc w).stopped = false)
    (hlt : s.next < g.N) : M g w (step g s (.go w)) < M g w s := by
  have hn : ¬ g.wakeup < w := by omega
  unfold M
  match hp : s.pc w with
  | .idle => simp [step, hn, hp, mrank]
  | .run b => simp [step, hn, hp, mrank]
  | .complete b => simp [step, hn, hp, mrank]
  | .fetch did =>
    cases ht : g.task s.next with
    | some b => simp [step, hn, hp, ht, mrank]; omega
    | none => simp [step, hn, hp, ht, mrank]; omega
  | .ret d => rw [hp] at hns; simp [PC.stopped] at hns
  | .asleep => rw [hp] at hns; simp [PC.stopped] at hns
  | .wait => rw [hp] at hns; simp [PC.stopped] at hns
  | .returned => rw [hp] at hns; simp [PC.stopped] at hns

theorem next_time {α : Type} [DecidableEq α] {σ : Nat → α} {c : α} {t : Nat} (h : ∃ t', t ≤ t' ∧ σ t' = c) :
    ∃ t', t ≤ t' ∧ σ t' = c ∧ ∀ u, t ≤ u → u < t' → σ u ≠ c := by
  obtain ⟨t', h1, h2⟩ := h
  have : ∀ n, ∀ t, (∃ t', t ≤ t' ∧ t' < t + n ∧ σ t' = c) →
      ∃ t', t ≤ t' ∧ σ t' = c ∧ ∀ u, t ≤ u → u < t' → σ u ≠ c := by
    intro n
    induction n with
    | zero => rintro t ⟨t', a, b, _⟩; omega
    | succ n ih =>
      rintro t ⟨t', a, b, e⟩
      by_cases h : σ t = c
      · exact ⟨t, Nat.le_refl _, h, fun u _ _ => by omega⟩
      · have : t ≠ t' := by rintro rfl; exact h e
        obtain ⟨w, h1, h2, h3⟩ := ih (t + 1) ⟨t', by omega, by omega, e⟩
        refine ⟨w, by omega, h2, fun u hu1 hu2 => ?_⟩
        by_cases e : u = t
        · subst e; exact h
        · exact h3 u (by omega) hu2
  exact this (t' - t + 1) t ⟨t', h1, by omega, h2⟩

/-- A thread that keeps being scheduled stops drawing only when it drew the ineffective ticket 0 or
all tickets are gone. -/
theorem thread_drains {g : Cfg} {σ : Nat → Act} {w : Nat} (hw : w ≤ g.wakeup)
    (hf : ∀ t, ∃ t', t ≤ t' ∧ σ t' = .go w) :
    ∃ t, g.N ≤ (trace g σ t).next ∨ ((trace g σ t).pc w).stopped = true := by
  have key : ∀ n t, M g w (trace g σ t) ≤ n →
      ∃ t, g.N ≤ (trace g σ t).next ∨ ((trace g σ t).pc w).stopped = true := by
    intro n
    induction n with
    | zero =>
      intro t hM
      refine ⟨t, ?_⟩
      refine Decidable.byContradiction fun hcon => ?_
      rw [not_or] at hcon
      have := M_self hw (Bool.eq_false_iff.mpr hcon.2) (by omega : (trace g σ t).next < g.N)
      omega
    | succ n ih =>
      intro t hM
      obtain ⟨t', h1, h2, h3⟩ := next_time (hf t)
      have hle : ∀ k, t + k ≤ t' →
          (∃ t, g.N ≤ (trace g σ t).next ∨ ((trace g σ t).pc w).stopped = true) ∨
          M g w (trace g σ (t + k)) ≤ n + 1 := by
        intro k
        induction k with
        | zero => intro _; exact Or.inr hM
        | succ k ihk =>
          intro hk
          rcases ihk (by omega) with h | h
          · exact Or.inl h
          · cases hs : ((trace g σ (t + k)).pc w).stopped with
            | true => exact Or.inl ⟨_, Or.inr hs⟩
            | false => exact Or.inr (Nat.le_trans (M_other g _ _ (h3 (t + k) (by omega) (by omega)) hs) h)
      rcases hle (t' - t) (by omega) with h | hM'
      · exact h
      rw [show t + (t' - t) = t' by omega] at hM'
      by_cases hcon : g.N ≤ (trace g σ t').next ∨ ((trace g σ t').pc w).stopped = true
      · exact ⟨t', hcon⟩
      · rw [not_or] at hcon
        have := M_self hw (Bool.eq_false_iff.mpr hcon.2) (by omega : (trace g σ t').next < g.N)
        refine ih (t' + 1) ?_
        have e : trace g σ (t' + 1) = step g (trace g σ t') (.go w) := by simp [trace, h2]
        rw [e]; omega
  exact key _ 0 (Nat.le_refl _)

theorem trace_next_mono (g : Cfg) (σ : Nat → Act) (t k : Nat) :
    (trace g σ t).next ≤ (trace g σ (t + k)).next := by
  induction k with
  | zero => exact Nat.le_refl _
  | succ k ih => exact Nat.le_trans ih (next_mono g _ _)

theorem trace_completed_mono (g : Cfg) (σ : Nat → Act) (t k : Nat) :
    (trace g σ t).completed ≤ (trace g σ (t + k)).completed := by
  induction k with
  | zero => exact Nat.le_refl _
  | succ k ih => exact Nat.le_trans ih (completed_mono g _ _)

theorem trace_zeroBy (g : Cfg) (σ : Nat → Act) (t k : Nat) {x : Nat}
    (h : (trace g σ t).zeroBy = some x) : (trace g σ (t + k)).zeroBy = some x := by
  induction k with
  | zero => exact h
  | succ k ih => exact zeroBy_stable (inv_trace g σ _) _ ih

theorem stopped_why {g : Cfg} {s : St} (h : Inv g s) {c : Nat} (hs : (s.pc c).stopped = true) :
    (g.skip0 = true ∧ s.zeroBy = some c) ∨ g.N ≤ s.next := by
  refine h.retWhy c ?_
  cases hp : s.pc c <;> rw [hp] at hs <;> simp [PC.stopped] at hs ⊢

/-- All tickets get drawn. -/
theorem drains {g : Cfg} {σ : Nat → Act} (h0 : ∀ t, ∃ t', t ≤ t' ∧ σ t' = .go 0)
    (h1 : g.skip0 = true → ∃ c, 1 ≤ c ∧ c ≤ g.wakeup ∧ ∀ t, ∃ t', t ≤ t' ∧ σ t' = .go c) :
    ∃ t, g.N ≤ (trace g σ t).next := by
  obtain ⟨t, ht | ht⟩ := thread_drains (g := g) (Nat.zero_le _) h0
  · exact ⟨t, ht⟩
  rcases stopped_why (inv_trace g σ t) ht with ⟨hs, hz⟩ | h
  case inr => exact ⟨t, h⟩
  obtain ⟨c, hc1, hw, hf1⟩ := h1 hs
  obtain ⟨u, hu | hu⟩ := thread_drains (g := g) hw hf1
  · exact ⟨u, hu⟩
  rcases stopped_why (inv_trace g σ u) hu with ⟨_, hz'⟩ | h
  case inr => exact ⟨u, h⟩
  have a := trace_zeroBy g σ t u hz
  have b := trace_zeroBy g σ u t hz'
  rw [show u + t = t + u by omega, a] at b
  cases b
  omega

def rank : PC → Nat
  | .run _ => 2
  | .complete _ => 1
  | _ => 0

def H (g : Cfg) (s : St) : Nat := sumTo (fun c => rank (s.pc c)) (g.wakeup + 1)

theorem task_none_of_ge {g : Cfg} {k : Nat} (h : g.N ≤ k) : g.task k = none := by
  cases ht : g.task k with
  | none => rfl
  | some b => have := (task_some_lt ht).2; omega

theorem rank_step {g : Cfg} {s : St} (hN : g.N ≤ s.next) (a : Act) (d : Nat) :
    rank ((step g s a).pc d) ≤ rank (s.pc d) := by
  cases a with
  | wake c =>
    by_cases e : d = c
    · subst e; unfold step; simp only
      split
      · simp [rank]
      · exact Nat.le_refl _
    · exact Nat.le_of_eq (by rw [step_other g s e _ (Or.inr rfl)])
  | go c =>
    by_cases e : d = c
    · subst e
      by_cases hn : g.wakeup < d
      · simp [step, hn]
      match hp : s.pc d with
      | .fetch did => simp [step, hn, hp, task_none_of_ge hN, rank]
      | .idle => simp [step, hn, hp, rank]
      | .run b => simp [step, hn, hp, rank]
      | .complete b => simp [step, hn, hp, rank]
      | .asleep => simp [step, hn, hp, rank]
      | .returned => simp [step, hn, hp, rank]
      | .ret did =>
        simp only [step, hn, hp, if_false, upd_self]
        cases did <;> by_cases e : d = 0 <;> simp [e, rank]
      | .wait =>
        simp only [step, hn, hp, if_false]
        split <;> simp [rank, hp]
    · exact Nat.le_of_eq (by rw [step_other g s e _ (Or.inl rfl)])

theorem rank_step_lt {g : Cfg} {s : St} {c : Nat} (hc : c ≤ g.wakeup)
    (hb : (s.pc c).busy = true) : rank ((step g s (.go c)).pc c) < rank (s.pc c) := by
  have hn : ¬ g.wakeup < c := by omega
  cases hp : s.pc c <;> rw [hp] at hb <;> simp [PC.busy] at hb
  · simp [step, hn, hp, rank]
  · simp [step, hn, hp, rank]

theorem holder_exists {g : Cfg} {s : St} (h : Inv g s) (hN : g.N ≤ s.next)
    (hlt : s.completed < g.n) : ∃ c, c ≤ g.wakeup ∧ (s.pc c).busy = true := by
  refine Classical.byContradiction fun hcon => ?_
  have nb : ∀ c, c ≤ g.wakeup → (s.pc c).busy = false := by
    intro c hc
    cases hb : (s.pc c).busy
    · rfl
    · exact absurd ⟨c, hc, hb⟩ hcon
  have hall : ∀ b, b < g.n → b ∈ s.doneL := by
    intro b hb
    obtain ⟨k, h1, h2⟩ := task_surj hb
    rcases h.cov b ⟨k, by omega, h2⟩ with hl | ⟨c, hcw, hh⟩
    · rcases h.logCov b hl with hd | ⟨c, hcw, hh⟩
      · exact hd
      · have := nb c hcw; rw [hh] at this; simp [PC.busy] at this
    · have := nb c hcw; rw [hh] at this; simp [PC.busy] at this
  have hsub : List.range g.n ⊆ s.doneL := fun b hb => hall b (List.mem_range.mp hb)
  have := List.Nodup.length_le_of_subset List.nodup_range hsub
  rw [List.length_range, h.doneLen] at this
  omega

theorem finish {g : Cfg} {σ : Nat → Act} (hf : Fair g σ) (t0 : Nat)
    (hN0 : g.N ≤ (trace g σ t0).next) : ∃ t, t0 ≤ t ∧ g.n ≤ (trace g σ t).completed := by
  have hN : ∀ t, t0 ≤ t → g.N ≤ (trace g σ t).next := by
    intro t ht
    have := trace_next_mono g σ t0 (t - t0)
    rw [show t0 + (t - t0) = t by omega] at this; omega
  have key : ∀ n t, t0 ≤ t → H g (trace g σ t) ≤ n → ∃ t, t0 ≤ t ∧ g.n ≤ (trace g σ t).completed := by
    intro n
    induction n with
    | zero =>
      intro t ht hH
      refine ⟨t, ht, Nat.le_of_not_lt fun hlt => ?_⟩
      obtain ⟨c, hc, hb⟩ := holder_exists (inv_trace g σ t) (hN t ht) hlt
      have : H g (step g (trace g σ t) (.go c)) < H g (trace g σ t) :=
        sumTo_lt (c := c) (fun d _ => rank_step (hN t ht) _ d) (by omega) (rank_step_lt hc hb)
      omega
    | succ n ih =>
      intro t ht hH
      by_cases hlt : (trace g σ t).completed < g.n
      · obtain ⟨c, hc, hb⟩ := holder_exists (inv_trace g σ t) (hN t ht) hlt
        obtain ⟨t', h1, h2, h3⟩ := next_time (hf.2 t c hb)
        have hHk : ∀ k, H g (trace g σ (t + k)) ≤ n + 1 := by
          intro k
          induction k with
          | zero => exact hH
          | succ k ihk =>
            exact Nat.le_trans (sumTo_le fun d _ => rank_step (hN (t + k) (by omega)) _ d) ihk
        have hpc : ∀ k, t + k ≤ t' → (trace g σ (t + k)).pc c = (trace g σ t).pc c := by
          intro k
          induction k with
          | zero => intro _; rfl
          | succ k ihk =>
            intro hk
            have hk' := ihk (by omega)
            rw [← hk']
            have hne := h3 (t + k) (by omega) (by omega)
            show (step g (trace g σ (t + k)) (σ (t + k))).pc c = _
            cases ha : σ (t + k) with
            | go d =>
              have : c ≠ d := by rintro rfl; exact hne ha
              exact step_other g _ this _ (Or.inl rfl)
            | wake d =>
              by_cases e : c = d
              · subst e
                have hna : (trace g σ (t + k)).pc c ≠ .asleep := by
                  rw [hk']; intro e; rw [e] at hb; simp [PC.busy] at hb
                simp [step, hna]
              · exact step_other g _ e _ (Or.inr rfl)
        have e' : t + (t' - t) = t' := by omega
        have hb' : ((trace g σ t').pc c).busy = true := by
          have := hpc (t' - t) (by omega); rw [e'] at this; rw [this]; exact hb
        have hH' := hHk (t' - t); rw [e'] at hH'
        have hdec : H g (step g (trace g σ t') (.go c)) < H g (trace g σ t') :=
          sumTo_lt (c := c) (fun d _ => rank_step (hN t' (by omega)) _ d) (by omega) (rank_step_lt hc hb')
        refine ih (t' + 1) (by omega) ?_
        have e : trace g σ (t' + 1) = step g (trace g σ t') (.go c) := by simp [trace, h2]
        rw [e]; omega
      · exact ⟨t, ht, by omega⟩
  exact key _ t0 (Nat.le_refl _) (Nat.le_refl _)

/-- steps the caller still has to take once the barrier is satisfied and all tickets are drawn -/
def crank : PC → Nat
  | .idle => 8
  | .run _ => 7
  | .complete _ => 6
  | .fetch _ => 5
  | .ret _ => 4
  | .asleep => 3
  | .wait => 1
  | .returned => 0

theorem live_of_drained {g : Cfg} {σ : Nat → Act} (hf : Fair g σ) (hd : ∃ t, g.N ≤ (trace g σ t).next) :
    ∃ t, (trace g σ t).pc 0 = .returned := by
  obtain ⟨ta, hta⟩ := hd
  obtain ⟨t0, ht0, hc0⟩ := finish hf ta hta
  have hN : ∀ t, t0 ≤ t → g.N ≤ (trace g σ t).next := by
    intro t ht
    have := trace_next_mono g σ ta (t - ta)
    rw [show ta + (t - ta) = t by omega] at this; omega
  have hC : ∀ t, t0 ≤ t → g.n ≤ (trace g σ t).completed := by
    intro t ht
    have := trace_completed_mono g σ t0 (t - t0)
    rw [show t0 + (t - t0) = t by omega] at this; omega
  have hdec : ∀ t, t0 ≤ t → (trace g σ t).pc 0 ≠ .returned →
      crank ((step g (trace g σ t) (.go 0)).pc 0) < crank ((trace g σ t).pc 0) := by
    intro t ht hr
    have hm := (inv_trace g σ t).main
    have hCt := hC t ht
    have hnl : ¬ (trace g σ t).completed < g.n := by omega
    match hp : (trace g σ t).pc 0 with
    | .idle => exact absurd hp hm.1
    | .asleep => exact absurd hp hm.2
    | .returned => exact absurd hp hr
    | .fetch did => simp [step, hp, task_none_of_ge (hN t ht), crank]
    | .run b => simp [step, hp, crank]
    | .complete b => simp [step, hp, crank]
    | .ret did => simp [step, hp, crank]
    | .wait => simp [step, hp, hnl, crank]
  have key : ∀ n t, t0 ≤ t → crank ((trace g σ t).pc 0) ≤ n → ∃ t, (trace g σ t).pc 0 = .returned := by
    intro n
    induction n with
    | zero =>
      intro t ht hr
      refine ⟨t, ?_⟩
      cases hp : (trace g σ t).pc 0 <;> rw [hp] at hr <;> simp [crank] at hr ⊢
    | succ n ih =>
      intro t ht hr
      obtain ⟨t', h1, h2, h3⟩ := next_time (hf.1 t)
      have hpc : ∀ k, t + k ≤ t' → (trace g σ (t + k)).pc 0 = (trace g σ t).pc 0 := by
        intro k
        induction k with
        | zero => intro _; rfl
        | succ k ihk =>
          intro hk
          rw [← ihk (by omega)]
          have hne := h3 (t + k) (by omega) (by omega)
          show (step g (trace g σ (t + k)) (σ (t + k))).pc 0 = _
          cases ha : σ (t + k) with
          | go d =>
            have : 0 ≠ d := by rintro rfl; exact hne ha
            exact step_other g _ this _ (Or.inl rfl)
          | wake d =>
            by_cases e : 0 = d
            · subst e; simp [step]
            · exact step_other g _ e _ (Or.inr rfl)
      have hp' : (trace g σ t').pc 0 = (trace g σ t).pc 0 := by
        have := hpc (t' - t) (by omega); rwa [show t + (t' - t) = t' by omega] at this
      by_cases hr' : (trace g σ t').pc 0 = .returned
      · exact ⟨t', hr'⟩
      · have := hdec t' (by omega) hr'
        rw [hp'] at this
        refine ih (t' + 1) (by omega) ?_
        have e : trace g σ (t' + 1) = step g (trace g σ t') (.go 0) := by simp [trace, h2]
        rw [e]; omega
  exact key _ t0 (Nat.le_refl _) (Nat.le_refl _)

/-! ### Deadlock of index mode when no worker takes part -/

/-- If only the caller ever runs in index mode, it draws ticket 0, stops, and waits forever. -/
theorem live {g : Cfg} {σ : Nat → Act} (hf : Fair g σ)
    (h1 : g.skip0 = true → ∃ c, 1 ≤ c ∧ c ≤ g.wakeup ∧ ∀ t, ∃ t', t ≤ t' ∧ σ t' = .go c) :
    ∃ t, (trace g σ t).pc 0 = .returned := live_of_drained hf (drains hf.1 h1)

theorem stuck {g : Cfg} (hs : g.skip0 = true) (hn : 0 < g.n) (sched : List Act)
    (honly : ∀ a ∈ sched, ∀ c, a = .go c → c = 0 ∨ g.wakeup < c) :
    (exec g sched).pc 0 ≠ .returned := by
  have key : ∀ (l : List Act) s,
      ((s.next = 0 ∧ s.pc 0 = .fetch false) ∨ (∃ d, s.pc 0 = .ret d) ∨ s.pc 0 = .wait) →
      s.completed = 0 →
      (∀ a ∈ l, ∀ c, a = .go c → c = 0 ∨ g.wakeup < c) →
      (l.foldl (step g) s).pc 0 ≠ .returned := by
    intro l
    induction l with
    | nil =>
      intro s h _ _
      simp only [List.foldl_nil]
      rcases h with ⟨_, h⟩ | ⟨d, h⟩ | h <;> rw [h] <;> simp
    | cons a l ih =>
      intro s h hc ho
      simp only [List.foldl_cons]
      have ho' := fun a ha => ho a (List.mem_cons_of_mem _ ha)
      cases a with
      | wake c =>
        refine ih _ ?_ ?_ ho'
        · by_cases e : 0 = c
          · subst e; simpa [step] using h
          · have hpc := step_other g s e (.wake c) (Or.inr rfl)
            rw [hpc]
            have : (step g s (.wake c)).next = s.next := by unfold step; simp only; split <;> rfl
            rw [this]; exact h
        · unfold step; simp only; split <;> exact hc
      | go c =>
        by_cases hw : g.wakeup < c
        · have : step g s (.go c) = s := by simp [step, hw]
          rw [this]; exact ih s h hc ho'
        · have hc0 : c = 0 := by
            rcases ho _ List.mem_cons_self c rfl with h | h
            · exact h
            · exact absurd h hw
          subst hc0
          rcases h with ⟨h1, h2⟩ | ⟨d, h⟩ | h
          · refine ih _ ?_ ?_ ho'
            · right; left; refine ⟨false, ?_⟩
              simp [step, h2, h1, Cfg.task, hs]
            · simp [step, h2, hc]
          · refine ih _ ?_ ?_ ho'
            · right; right; simp [step, h]
            · simp [step, h, hc]
          · have : step g s (.go 0) = s := by simp [step, h, hc, hn]
            rw [this]; exact ih s (Or.inr (Or.inr h)) hc ho'
  exact key sched init (Or.inl ⟨rfl, rfl⟩) rfl honly

end Pnumpy.Counter
