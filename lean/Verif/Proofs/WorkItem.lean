import Verif.Model.WorkItem
namespace Pnumpy.Work

/-- Well-formed channel split as produced by `WorkMain`. -/
def WF (it : Item) : Prop :=
  ∀ i, it.chanLast i = it.blockLast / it.threads + if i < it.blockLast % it.threads then 1 else 0

theorem setup_wf (len : Nat) (req : Int) (mw bs : Nat) (g : Bool) (zz : Nat) :
    WF (workMainSetup len req mw bs g zz) := by
  intro i; rfl

theorem threads_pos (it : Item) : 0 < it.threads := Nat.succ_pos _

/-- position inside channel after zigzag -/
def Item.zpos (it : Item) (ch pos : Nat) : Nat :=
  if it.zigzag then it.chanLast ch - pos - 1 else pos

theorem zpos_lt {it : Item} {ch pos : Nat} (h : pos < it.chanLast ch) :
    it.zpos ch pos < it.chanLast ch := by
  unfold Item.zpos; split <;> omega

theorem zpos_inj {it : Item} {ch p q : Nat} (hp : p < it.chanLast ch) (hq : q < it.chanLast ch)
    (h : it.zpos ch p = it.zpos ch q) : p = q := by
  unfold Item.zpos at h; split at h <;> omega

theorem logical_eq (it : Item) (ch pos : Nat) :
    it.logical ch pos = it.zpos ch pos * it.threads + ch := rfl

theorem logical_inj {it : Item} {c1 p1 c2 p2 : Nat} (h1 : c1 < it.threads) (h2 : c2 < it.threads)
    (hp1 : p1 < it.chanLast c1) (hp2 : p2 < it.chanLast c2)
    (h : it.logical c1 p1 = it.logical c2 p2) : c1 = c2 ∧ p1 = p2 := by
  rw [logical_eq, logical_eq] at h
  have e1 : (it.zpos c1 p1 * it.threads + c1) % it.threads = c1 := by
    rw [Nat.mul_comm, Nat.mul_add_mod]; exact Nat.mod_eq_of_lt h1
  have e2 : (it.zpos c2 p2 * it.threads + c2) % it.threads = c2 := by
    rw [Nat.mul_comm, Nat.mul_add_mod]; exact Nat.mod_eq_of_lt h2
  have hc : c1 = c2 := by rw [← e1, h, e2]
  subst hc
  refine ⟨rfl, zpos_inj hp1 hp2 ?_⟩
  have : it.zpos c1 p1 * it.threads = it.zpos c1 p2 * it.threads := by omega
  exact Nat.eq_of_mul_eq_mul_right (threads_pos it) this

theorem logical_lt {it : Item} (wf : WF it) {ch pos : Nat} (h1 : ch < it.threads)
    (hp : pos < it.chanLast ch) : it.logical ch pos < it.blockLast := by
  rw [logical_eq]
  have hz := zpos_lt hp
  rw [wf ch] at hz
  have hd := Nat.div_add_mod it.blockLast it.threads
  generalize it.zpos ch pos = z at *
  generalize it.blockLast / it.threads = q at *
  generalize it.blockLast % it.threads = r at *
  generalize it.threads = t at *
  split at hz
  · have : z * t ≤ q * t := Nat.mul_le_mul_right t (by omega)
    have e : q * t = t * q := Nat.mul_comm _ _
    omega
  · have : (z + 1) * t ≤ q * t := Nat.mul_le_mul_right t (by omega)
    have e : q * t = t * q := Nat.mul_comm _ _
    rw [Nat.succ_mul] at this
    omega

theorem logical_surj {it : Item} (wf : WF it) {b : Nat} (hb : b < it.blockLast) :
    ∃ ch pos, ch < it.threads ∧ pos < it.chanLast ch ∧ b = it.logical ch pos := by
  have ht := threads_pos it
  have hz : b / it.threads < it.chanLast (b % it.threads) := by
    rw [wf]
    have hb1 := Nat.div_add_mod b it.threads
    have hd := Nat.div_add_mod it.blockLast it.threads
    have hm := Nat.mod_lt b ht
    have hle : b / it.threads ≤ it.blockLast / it.threads := Nat.div_le_div_right (Nat.le_of_lt hb)
    split
    · omega
    · rename_i hn
      rcases Nat.lt_or_eq_of_le hle with h | h
      · exact h
      · rw [h] at hb1; omega
  refine ⟨b % it.threads, it.zpos (b % it.threads) (b / it.threads), Nat.mod_lt _ ht, zpos_lt hz, ?_⟩
  rw [logical_eq]
  have : it.zpos (b % it.threads) (it.zpos (b % it.threads) (b / it.threads)) = b / it.threads := by
    generalize b / it.threads = z at *
    unfold Item.zpos; split <;> omega
  rw [this, Nat.mul_comm]
  exact (Nat.div_add_mod b it.threads).symm

/-- `b` has been claimed by some fetch-and-add. -/
def Claimed (it : Item) (s : St) (b : Nat) : Prop :=
  ∃ ch pos, ch < it.threads ∧ pos < it.chanLast ch ∧ pos < s.cur ch ∧ b = it.logical ch pos

/-- the thread state holds block `b`, kernel not finished -/
def Holds (it : Item) : PC → Nat → Prop
  | .bump ch pos, b => b = it.logical ch pos
  | .run b', b => b = b'
  | _, _ => False

def AllClaimed (it : Item) (s : St) : Prop := ∀ ch, ch < it.threads → it.chanLast ch ≤ s.cur ch

structure Inv (it : Item) (s : St) : Prop where
  logNodup : s.log.Nodup
  logClaimed : ∀ b ∈ s.log, Claimed it s b
  holdClaimed : ∀ c b, Holds it (s.pc c) b → Claimed it s b
  holdNotLog : ∀ c b, Holds it (s.pc c) b → b ∉ s.log
  holdInj : ∀ c d b, Holds it (s.pc c) b → Holds it (s.pc d) b → c = d
  claimedCov : ∀ b, Claimed it s b → b ∈ s.log ∨ ∃ c, c ≤ it.wakeup ∧ Holds it (s.pc c) b
  bumpLen : s.bumped.length = s.blockNext
  bumpNodup : s.bumped.Nodup
  bumpClaimed : ∀ b ∈ s.bumped, Claimed it s b
  bumpFresh : ∀ c ch pos, s.pc c = .bump ch pos → it.logical ch pos ∉ s.bumped
  doneLen : s.doneL.length = s.completed
  doneNodup : s.doneL.Nodup
  doneLog : ∀ b ∈ s.doneL, b ∈ s.log
  compLog : ∀ c b, s.pc c = .complete b → b ∈ s.log
  compFresh : ∀ c b, s.pc c = .complete b → b ∉ s.doneL
  compInj : ∀ c d b, s.pc c = .complete b → s.pc d = .complete b → c = d
  logCov : ∀ b ∈ s.log, b ∈ s.doneL ∨ ∃ c, c ≤ it.wakeup ∧ s.pc c = .complete b
  checkEx : ∀ c, s.pc c = .check → it.chanLast c ≤ s.cur c
  scanEx : ∀ c i, s.pc c = .scan i → it.chanLast c ≤ s.cur c ∧ ∀ j, j < i → j < it.threads → it.chanLast j ≤ s.cur j
  retAll : ∀ c, (s.pc c = .ret ∨ s.pc c = .wait ∨ s.pc c = .returned) → AllClaimed it s
  retDone : ∀ c, s.pc c = .returned → it.blockLast ≤ s.completed
  bumpRange : ∀ c ch pos, s.pc c = .bump ch pos → ch < it.threads ∧ pos < it.chanLast ch
  scanRange : ∀ c i, s.pc c = .scan i → i ≤ it.threads
  coreRange : ∀ c, it.wakeup < c → s.pc c = .idle
  mainNotIdle : s.pc 0 ≠ .idle
  waitMain : ∀ c, (s.pc c = .wait ∨ s.pc c = .returned) → c = 0

/-- A nodup list of naturals below `n` with at least `n` entries contains all of them. -/
theorem nodup_full {l : List Nat} {n : Nat} (hn : l.Nodup) (hlt : ∀ b ∈ l, b < n)
    (hlen : n ≤ l.length) : ∀ b, b < n → b ∈ l := by
  intro b hb
  refine Decidable.byContradiction fun hmem => ?_
  have h2 : (b :: l).Nodup := List.nodup_cons.mpr ⟨hmem, hn⟩
  have h3 : (b :: l) ⊆ List.range n := by
    intro x hx
    rcases List.mem_cons.mp hx with h | h
    · subst h; exact List.mem_range.mpr hb
    · exact List.mem_range.mpr (hlt x h)
  have h4 := List.Nodup.length_le_of_subset h2 h3
  simp at h4; omega


@[simp] theorem upd_self {β : Type} (f : Nat → β) (i : Nat) (v : β) : upd f i v i = v := by simp [upd]
@[simp] theorem upd_ne {β : Type} (f : Nat → β) {i j : Nat} (v : β) (h : j ≠ i) :
    upd f i v j = f j := by simp [upd, h]

theorem upd_cases {f : Nat → PC} {c d : Nat} {q r : PC} (h : upd f c q d = r) :
    (d = c ∧ q = r) ∨ (d ≠ c ∧ f d = r) := by
  unfold upd at h; split at h <;> simp_all

theorem upd_holds {it : Item} {f : Nat → PC} {c d : Nat} {q : PC} {b : Nat}
    (h : Holds it (upd f c q d) b) : (d = c ∧ Holds it q b) ∨ (d ≠ c ∧ Holds it (f d) b) := by
  unfold upd at h; split at h <;> simp_all

theorem inv_init (it : Item) : Inv it init := by
  have hpc : ∀ c, init.pc c = .own ∨ init.pc c = .idle := by
    intro c; by_cases h : c = 0 <;> simp [init, h]
  have hh : ∀ c b, ¬ Holds it (init.pc c) b := by
    intro c b; rcases hpc c with h | h <;> simp [h, Holds]
  have hcl : ∀ b, ¬ Claimed it init b := by
    rintro b ⟨ch, pos, _, _, h, _⟩; simp [init] at h
  constructor
  case coreRange => intro c hc; have : c ≠ 0 := by omega
                    simp [init, this]
  case mainNotIdle => simp [init]
  all_goals first
    | simp [init]; done
    | (intros; exfalso; simp_all; done)
    | (intro c; rcases hpc c with h | h <;> simp [h]; done)

/-- A step that only moves thread `c` between states that hold no block. -/
theorem inv_silent {it : Item} {s : St} {c : Nat} {q : PC} (h : Inv it s) (hc : c ≤ it.wakeup)
    (hp : ∀ b, ¬ Holds it (s.pc c) b) (hp2 : ∀ b, s.pc c ≠ .complete b)
    (hq : ∀ b, ¬ Holds it q b) (hq2 : ∀ b, q ≠ .complete b)
    (hq3 : ∀ ch pos, q ≠ .bump ch pos)
    (hcheck : q = .check → it.chanLast c ≤ s.cur c)
    (hscan : ∀ i, q = .scan i → i ≤ it.threads ∧ it.chanLast c ≤ s.cur c ∧
      ∀ j, j < i → j < it.threads → it.chanLast j ≤ s.cur j)
    (hret : (q = .ret ∨ q = .wait ∨ q = .returned) → AllClaimed it s)
    (hretd : q = .returned → it.blockLast ≤ s.completed)
    (hmi : c = 0 → q ≠ .idle)
    (hw : (q = .wait ∨ q = .returned) → c = 0) :
    Inv it { s with pc := upd s.pc c q } := by
  have H : ∀ d b, Holds it (upd s.pc c q d) b → Holds it (s.pc d) b := by
    intro d b hd
    rcases upd_holds hd with ⟨_, h2⟩ | ⟨_, h2⟩
    · exact absurd h2 (hq b)
    · exact h2
  have H' : ∀ d b, Holds it (s.pc d) b → Holds it (upd s.pc c q d) b := by
    intro d b hd
    have : d ≠ c := by rintro rfl; exact hp b hd
    simpa [this] using hd
  have K : ∀ d b, upd s.pc c q d = .complete b → s.pc d = .complete b := by
    intro d b hd
    rcases upd_cases hd with ⟨_, h2⟩ | ⟨_, h2⟩
    · exact absurd h2 (hq2 b)
    · exact h2
  have K' : ∀ d b, s.pc d = .complete b → upd s.pc c q d = .complete b := by
    intro d b hd
    have : d ≠ c := by rintro rfl; exact hp2 b hd
    simpa [this] using hd
  have B : ∀ d ch pos, upd s.pc c q d = .bump ch pos → s.pc d = .bump ch pos := by
    intro d ch pos hd
    rcases upd_cases hd with ⟨_, h2⟩ | ⟨_, h2⟩
    · exact absurd h2 (hq3 ch pos)
    · exact h2
  constructor
  · exact h.logNodup
  · exact h.logClaimed
  · exact fun d b hd => h.holdClaimed d b (H d b hd)
  · exact fun d b hd => h.holdNotLog d b (H d b hd)
  · exact fun d e b hd he => h.holdInj d e b (H d b hd) (H e b he)
  · intro b hb
    rcases h.claimedCov b hb with h1 | ⟨d, hd, h1⟩
    · exact Or.inl h1
    · exact Or.inr ⟨d, hd, H' d b h1⟩
  · exact h.bumpLen
  · exact h.bumpNodup
  · exact h.bumpClaimed
  · exact fun d ch pos hd => h.bumpFresh d ch pos (B d ch pos hd)
  · exact h.doneLen
  · exact h.doneNodup
  · exact h.doneLog
  · exact fun d b hd => h.compLog d b (K d b hd)
  · exact fun d b hd => h.compFresh d b (K d b hd)
  · exact fun d e b hd he => h.compInj d e b (K d b hd) (K e b he)
  · intro b hb
    rcases h.logCov b hb with h1 | ⟨d, hd, h1⟩
    · exact Or.inl h1
    · exact Or.inr ⟨d, hd, K' d b h1⟩
  · intro d hd
    rcases upd_cases hd with ⟨rfl, h2⟩ | ⟨_, h2⟩
    · exact hcheck h2
    · exact h.checkEx d h2
  · intro d i hd
    rcases upd_cases hd with ⟨rfl, h2⟩ | ⟨_, h2⟩
    · exact (hscan i h2).2
    · exact h.scanEx d i h2
  · intro d hd
    by_cases e : d = c
    · subst e; simp at hd; exact hret hd
    · simp [e] at hd; exact h.retAll d hd
  · intro d hd
    rcases upd_cases hd with ⟨rfl, h2⟩ | ⟨_, h2⟩
    · exact hretd h2
    · exact h.retDone d h2
  · exact fun d ch pos hd => h.bumpRange d ch pos (B d ch pos hd)
  · intro d i hd
    rcases upd_cases hd with ⟨rfl, h2⟩ | ⟨_, h2⟩
    · exact (hscan i h2).1
    · exact h.scanRange d i h2
  · intro d hd
    have : d ≠ c := by omega
    simp [this]; exact h.coreRange d hd
  · by_cases e : 0 = c
    · subst e; simp; exact hmi rfl
    · simp [e]; exact h.mainNotIdle
  · intro d hd
    by_cases e : d = c
    · subst e; simp at hd; exact hw hd
    · simp [e] at hd; exact h.waitMain d hd

theorem inv_claim {it : Item} {s : St} {c i : Nat} {fail : PC} (h : Inv it s) (hc : c ≤ it.wakeup)
    (hi : i < it.threads)
    (hp : ∀ b, ¬ Holds it (s.pc c) b) (hp2 : ∀ b, s.pc c ≠ .complete b)
    (hq : ∀ b, ¬ Holds it fail b) (hq2 : ∀ b, fail ≠ .complete b)
    (hq3 : ∀ ch pos, fail ≠ .bump ch pos)
    (hcheck : fail = .check → c = i)
    (hscan : ∀ k, fail = .scan k → k ≤ it.threads ∧ k = i + 1 ∧ it.chanLast c ≤ s.cur c ∧
      ∀ j, j < i → j < it.threads → it.chanLast j ≤ s.cur j)
    (hret : ¬ (fail = .ret ∨ fail = .wait ∨ fail = .returned))
    (hmi : fail ≠ .idle) :
    Inv it (tryClaim it s c i fail) := by
  have mono : ∀ j, s.cur j ≤ upd s.cur i (s.cur i + 1) j := by
    intro j; unfold upd; split
    · subst_vars; omega
    · omega
  -- claimed blocks stay claimed
  have CM : ∀ {pc' b}, Claimed it s b →
      Claimed it { s with cur := upd s.cur i (s.cur i + 1), pc := pc' } b := by
    rintro pc' b ⟨ch, pos, h1, h2, h3, h4⟩
    exact ⟨ch, pos, h1, h2, Nat.lt_of_lt_of_le h3 (mono ch), h4⟩
  have AM : ∀ {pc'}, AllClaimed it s →
      AllClaimed it { s with cur := upd s.cur i (s.cur i + 1), pc := pc' } := by
    intro pc' ha ch hch
    exact Nat.le_trans (ha ch hch) (mono ch)
  unfold tryClaim
  by_cases hlt : s.cur i < it.chanLast i
  · simp only [hlt, if_true]
    have fresh : ¬ Claimed it s (it.logical i (s.cur i)) := by
      rintro ⟨ch, pos, h1, h2, h3, h4⟩
      have := logical_inj hi h1 hlt h2 h4
      obtain ⟨rfl, rfl⟩ := this
      omega
    have new : ∀ {pc'}, Claimed it { s with cur := upd s.cur i (s.cur i + 1), pc := pc' }
        (it.logical i (s.cur i)) := by
      intro pc'
      exact ⟨i, s.cur i, hi, hlt, by simp, rfl⟩
    have only : ∀ {pc' b}, Claimed it { s with cur := upd s.cur i (s.cur i + 1), pc := pc' } b →
        Claimed it s b ∨ b = it.logical i (s.cur i) := by
      rintro pc' b ⟨ch, pos, h1, h2, h3, h4⟩
      by_cases e : ch = i
      · subst e
        simp at h3
        by_cases e2 : pos = s.cur ch
        · subst e2; exact Or.inr h4
        · exact Or.inl ⟨ch, pos, h1, h2, by omega, h4⟩
      · simp [e] at h3
        exact Or.inl ⟨ch, pos, h1, h2, h3, h4⟩
    have H : ∀ d b, Holds it (upd s.pc c (.bump i (s.cur i)) d) b →
        (d = c ∧ b = it.logical i (s.cur i)) ∨ (d ≠ c ∧ Holds it (s.pc d) b) := by
      intro d b hd
      rcases upd_holds hd with ⟨h1, h2⟩ | ⟨h1, h2⟩
      · exact Or.inl ⟨h1, h2⟩
      · exact Or.inr ⟨h1, h2⟩
    have H' : ∀ d b, Holds it (s.pc d) b → Holds it (upd s.pc c (.bump i (s.cur i)) d) b := by
      intro d b hd
      have : d ≠ c := by rintro rfl; exact hp b hd
      simpa [this] using hd
    have K : ∀ d b, upd s.pc c (.bump i (s.cur i)) d = .complete b → s.pc d = .complete b := by
      intro d b hd
      rcases upd_cases hd with ⟨_, h2⟩ | ⟨_, h2⟩
      · cases h2
      · exact h2
    have K' : ∀ d b, s.pc d = .complete b → upd s.pc c (.bump i (s.cur i)) d = .complete b := by
      intro d b hd
      have : d ≠ c := by rintro rfl; exact hp2 b hd
      simpa [this] using hd
    have O : ∀ d q, upd s.pc c (.bump i (s.cur i)) d = q → (∀ ch pos, q ≠ .bump ch pos) → s.pc d = q := by
      intro d q hd hq
      rcases upd_cases hd with ⟨_, h2⟩ | ⟨_, h2⟩
      · exact absurd h2.symm (hq _ _)
      · exact h2
    constructor
    · exact h.logNodup
    · exact fun b hb => CM (h.logClaimed b hb)
    · intro d b hd
      rcases H d b hd with ⟨_, rfl⟩ | ⟨_, h2⟩
      · exact new
      · exact CM (h.holdClaimed d b h2)
    · intro d b hd hmem
      rcases H d b hd with ⟨_, rfl⟩ | ⟨_, h2⟩
      · exact fresh (h.logClaimed _ hmem)
      · exact h.holdNotLog d b h2 hmem
    · intro d e b hd he
      rcases H d b hd with ⟨rfl, hb⟩ | ⟨hd1, h2⟩ <;> rcases H e b he with ⟨rfl, hb'⟩ | ⟨he1, h2'⟩
      · rfl
      · subst hb; exact absurd (h.holdClaimed e _ h2') fresh
      · subst hb'; exact absurd (h.holdClaimed d _ h2) fresh
      · exact h.holdInj d e b h2 h2'
    · intro b hb
      rcases only hb with hb | rfl
      · rcases h.claimedCov b hb with h1 | ⟨d, hd, h1⟩
        · exact Or.inl h1
        · exact Or.inr ⟨d, hd, H' d b h1⟩
      · exact Or.inr ⟨c, hc, by simp [Holds]⟩
    · exact h.bumpLen
    · exact h.bumpNodup
    · exact fun b hb => CM (h.bumpClaimed b hb)
    · intro d ch pos hd hmem
      rcases upd_cases hd with ⟨_, h2⟩ | ⟨_, h2⟩
      · cases h2; exact fresh (h.bumpClaimed _ hmem)
      · exact h.bumpFresh d ch pos h2 hmem
    · exact h.doneLen
    · exact h.doneNodup
    · exact h.doneLog
    · exact fun d b hd => h.compLog d b (K d b hd)
    · exact fun d b hd => h.compFresh d b (K d b hd)
    · exact fun d e b hd he => h.compInj d e b (K d b hd) (K e b he)
    · intro b hb
      rcases h.logCov b hb with h1 | ⟨d, hd, h1⟩
      · exact Or.inl h1
      · exact Or.inr ⟨d, hd, K' d b h1⟩
    · intro d hd
      exact Nat.le_trans (h.checkEx d (O d _ hd (by simp))) (mono d)
    · intro d k hd
      have := h.scanEx d k (O d _ hd (by simp))
      exact ⟨Nat.le_trans this.1 (mono d), fun j h1 h2 => Nat.le_trans (this.2 j h1 h2) (mono j)⟩
    · intro d hd
      refine AM (h.retAll d ?_)
      rcases hd with hd | hd | hd
      · exact Or.inl (O d _ hd (by simp))
      · exact Or.inr (Or.inl (O d _ hd (by simp)))
      · exact Or.inr (Or.inr (O d _ hd (by simp)))
    · exact fun d hd => h.retDone d (O d _ hd (by simp))
    · intro d ch pos hd
      rcases upd_cases hd with ⟨_, h2⟩ | ⟨_, h2⟩
      · cases h2; exact ⟨hi, hlt⟩
      · exact h.bumpRange d ch pos h2
    · exact fun d k hd => h.scanRange d k (O d _ hd (by simp))
    · intro d hd
      have : d ≠ c := by omega
      simp [this]; exact h.coreRange d hd
    · by_cases e : 0 = c
      · subst e; simp
      · simp [e]; exact h.mainNotIdle
    · intro d hd
      refine h.waitMain d ?_
      rcases hd with hd | hd
      · exact Or.inl (O d _ hd (by simp))
      · exact Or.inr (O d _ hd (by simp))
  · simp only [hlt, if_false]
    have hge : it.chanLast i ≤ s.cur i := Nat.le_of_not_lt hlt
    -- bumping an exhausted channel does not change what is claimed
    have back : ∀ {pc' b}, Claimed it { s with cur := upd s.cur i (s.cur i + 1), pc := pc' } b →
        Claimed it s b := by
      rintro pc' b ⟨ch, pos, h1, h2, h3, h4⟩
      by_cases e : ch = i
      · subst e; exact ⟨ch, pos, h1, h2, by omega, h4⟩
      · simp [e] at h3; exact ⟨ch, pos, h1, h2, h3, h4⟩
    have base : Inv it { s with cur := upd s.cur i (s.cur i + 1) } := by
      constructor
      · exact h.logNodup
      · exact fun b hb => CM (h.logClaimed b hb)
      · exact fun d b hd => CM (h.holdClaimed d b hd)
      · exact h.holdNotLog
      · exact h.holdInj
      · exact fun b hb => h.claimedCov b (back hb)
      · exact h.bumpLen
      · exact h.bumpNodup
      · exact fun b hb => CM (h.bumpClaimed b hb)
      · exact h.bumpFresh
      · exact h.doneLen
      · exact h.doneNodup
      · exact h.doneLog
      · exact h.compLog
      · exact h.compFresh
      · exact h.compInj
      · exact h.logCov
      · exact fun d hd => Nat.le_trans (h.checkEx d hd) (mono d)
      · intro d k hd
        have := h.scanEx d k hd
        exact ⟨Nat.le_trans this.1 (mono d), fun j h1 h2 => Nat.le_trans (this.2 j h1 h2) (mono j)⟩
      · exact fun d hd => AM (h.retAll d hd)
      · exact h.retDone
      · exact h.bumpRange
      · exact h.scanRange
      · exact h.coreRange
      · exact h.mainNotIdle
      · exact h.waitMain
    refine inv_silent (q := fail) base hc hp hp2 hq hq2 hq3 ?_ ?_ ?_ ?_ ?_ ?_
    · intro e; have := hcheck e; subst this; simp; omega
    · intro k e
      obtain ⟨h1, rfl, h3, h4⟩ := hscan k e
      refine ⟨h1, Nat.le_trans h3 (mono c), ?_⟩
      intro j hj hj2
      by_cases e2 : j = i
      · subst e2; simp; omega
      · exact Nat.le_trans (h4 j (by omega) hj2) (mono j)
    · exact fun e => absurd e hret
    · exact fun e => absurd (Or.inr (Or.inr e)) hret
    · exact fun _ => hmi
    · intro e; exact absurd (Or.inr e) hret

theorem inv_bump {it : Item} {s : St} {c ch pos : Nat} (h : Inv it s) (hc : c ≤ it.wakeup)
    (hp : s.pc c = .bump ch pos) :
    Inv it { s with
      blockNext := s.blockNext + 1
      pc := upd s.pc c (.run (it.logical ch pos))
      bumped := it.logical ch pos :: s.bumped } := by
  have hold : Holds it (s.pc c) (it.logical ch pos) := by rw [hp]; rfl
  have H : ∀ d b, Holds it (upd s.pc c (.run (it.logical ch pos)) d) b ↔ Holds it (s.pc d) b := by
    intro d b
    by_cases e : d = c
    · subst e; rw [hp]; simp [Holds]
    · simp [e]
  have O : ∀ d q, upd s.pc c (.run (it.logical ch pos)) d = q → (∀ b, q ≠ .run b) → s.pc d = q := by
    intro d q hd hq
    rcases upd_cases hd with ⟨_, h2⟩ | ⟨_, h2⟩
    · exact absurd h2.symm (hq _)
    · exact h2
  have K' : ∀ d b, s.pc d = .complete b → upd s.pc c (.run (it.logical ch pos)) d = .complete b := by
    intro d b hd
    have : d ≠ c := by rintro rfl; rw [hp] at hd; cases hd
    simpa [this] using hd
  constructor
  · exact h.logNodup
  · exact h.logClaimed
  · exact fun d b hd => h.holdClaimed d b ((H d b).mp hd)
  · exact fun d b hd => h.holdNotLog d b ((H d b).mp hd)
  · exact fun d e b hd he => h.holdInj d e b ((H d b).mp hd) ((H e b).mp he)
  · intro b hb
    rcases h.claimedCov b hb with h1 | ⟨d, hd, h1⟩
    · exact Or.inl h1
    · exact Or.inr ⟨d, hd, (H d b).mpr h1⟩
  · simp [h.bumpLen]
  · exact List.nodup_cons.mpr ⟨h.bumpFresh c ch pos hp, h.bumpNodup⟩
  · intro b hb
    rcases List.mem_cons.mp hb with rfl | hb
    · exact h.holdClaimed c _ hold
    · exact h.bumpClaimed b hb
  · intro d ch' pos' hd hmem
    have hd' := O d _ hd (by simp)
    rcases List.mem_cons.mp hmem with hm | hm
    · have : d = c := h.holdInj d c (it.logical ch pos) (by rw [hd']; exact hm.symm) hold
      subst this; simp at hd
    · exact h.bumpFresh d ch' pos' hd' hm
  · exact h.doneLen
  · exact h.doneNodup
  · exact h.doneLog
  · exact fun d b hd => h.compLog d b (O d _ hd (by simp))
  · exact fun d b hd => h.compFresh d b (O d _ hd (by simp))
  · exact fun d e b hd he => h.compInj d e b (O d _ hd (by simp)) (O e _ he (by simp))
  · intro b hb
    rcases h.logCov b hb with h1 | ⟨d, hd, h1⟩
    · exact Or.inl h1
    · exact Or.inr ⟨d, hd, K' d b h1⟩
  · exact fun d hd => h.checkEx d (O d _ hd (by simp))
  · exact fun d k hd => h.scanEx d k (O d _ hd (by simp))
  · intro d hd
    refine h.retAll d ?_
    rcases hd with hd | hd | hd
    · exact Or.inl (O d _ hd (by simp))
    · exact Or.inr (Or.inl (O d _ hd (by simp)))
    · exact Or.inr (Or.inr (O d _ hd (by simp)))
  · exact fun d hd => h.retDone d (O d _ hd (by simp))
  · exact fun d a b hd => h.bumpRange d a b (O d _ hd (by simp))
  · exact fun d k hd => h.scanRange d k (O d _ hd (by simp))
  · intro d hd
    have : d ≠ c := by omega
    simp [this]; exact h.coreRange d hd
  · by_cases e : 0 = c
    · subst e; simp
    · simp [e]; exact h.mainNotIdle
  · intro d hd
    refine h.waitMain d ?_
    rcases hd with hd | hd
    · exact Or.inl (O d _ hd (by simp))
    · exact Or.inr (O d _ hd (by simp))

theorem inv_run {it : Item} {s : St} {c b : Nat} (h : Inv it s) (hc : c ≤ it.wakeup)
    (hp : s.pc c = .run b) :
    Inv it { s with pc := upd s.pc c (.complete b), log := b :: s.log } := by
  have hold : Holds it (s.pc c) b := by rw [hp]; rfl
  have H : ∀ d b', Holds it (upd s.pc c (.complete b) d) b' → d ≠ c ∧ Holds it (s.pc d) b' := by
    intro d b' hd
    rcases upd_holds hd with ⟨_, h2⟩ | h2
    · simp [Holds] at h2
    · exact h2
  have O : ∀ d q, upd s.pc c (.complete b) d = q → (∀ b, q ≠ .complete b) → s.pc d = q := by
    intro d q hd hq
    rcases upd_cases hd with ⟨_, h2⟩ | ⟨_, h2⟩
    · exact absurd h2.symm (hq _)
    · exact h2
  have K : ∀ d b', upd s.pc c (.complete b) d = .complete b' → (d = c ∧ b' = b) ∨ (d ≠ c ∧ s.pc d = .complete b') := by
    intro d b' hd
    rcases upd_cases hd with ⟨h1, h2⟩ | h2
    · cases h2; exact Or.inl ⟨h1, rfl⟩
    · exact Or.inr h2
  have nl : b ∉ s.log := h.holdNotLog c b hold
  constructor
  · exact List.nodup_cons.mpr ⟨nl, h.logNodup⟩
  · intro b' hb
    rcases List.mem_cons.mp hb with rfl | hb
    · exact h.holdClaimed c _ hold
    · exact h.logClaimed b' hb
  · exact fun d b hd => h.holdClaimed d b (H d b hd).2
  · intro d b' hd hmem
    obtain ⟨h1, h2⟩ := H d b' hd
    rcases List.mem_cons.mp hmem with rfl | hm
    · exact h1 (h.holdInj d c _ h2 hold)
    · exact h.holdNotLog d b' h2 hm
  · exact fun d e b hd he => h.holdInj d e b (H d b hd).2 (H e b he).2
  · intro b' hb
    rcases h.claimedCov b' hb with h1 | ⟨d, hd, h1⟩
    · exact Or.inl (List.mem_cons_of_mem _ h1)
    · by_cases e : d = c
      · subst e; rw [hp] at h1; left; simp [Holds] at h1; simp [h1]
      · exact Or.inr ⟨d, hd, by simpa [e] using h1⟩
  · exact h.bumpLen
  · exact h.bumpNodup
  · exact h.bumpClaimed
  · exact fun d ch pos hd => h.bumpFresh d ch pos (O d _ hd (by simp))
  · exact h.doneLen
  · exact h.doneNodup
  · exact fun b hb => List.mem_cons_of_mem _ (h.doneLog b hb)
  · intro d b' hd
    rcases K d b' hd with ⟨_, rfl⟩ | ⟨_, h2⟩
    · exact List.mem_cons_self
    · exact List.mem_cons_of_mem _ (h.compLog d b' h2)
  · intro d b' hd hmem
    rcases K d b' hd with ⟨_, rfl⟩ | ⟨_, h2⟩
    · exact nl (h.doneLog _ hmem)
    · exact h.compFresh d b' h2 hmem
  · intro d e b' hd he
    rcases K d b' hd with ⟨rfl, hb⟩ | ⟨hd1, h2⟩ <;> rcases K e b' he with ⟨rfl, hb'⟩ | ⟨he1, h2'⟩
    · rfl
    · subst hb; exact absurd (h.compLog e _ h2') nl
    · subst hb'; exact absurd (h.compLog d _ h2) nl
    · exact h.compInj d e b' h2 h2'
  · intro b' hb
    rcases List.mem_cons.mp hb with rfl | hb
    · exact Or.inr ⟨c, hc, by simp⟩
    · rcases h.logCov b' hb with h1 | ⟨d, hd, h1⟩
      · exact Or.inl h1
      · have : d ≠ c := by rintro rfl; rw [hp] at h1; cases h1
        exact Or.inr ⟨d, hd, by simpa [this] using h1⟩
  · exact fun d hd => h.checkEx d (O d _ hd (by simp))
  · exact fun d k hd => h.scanEx d k (O d _ hd (by simp))
  · intro d hd
    refine h.retAll d ?_
    rcases hd with hd | hd | hd
    · exact Or.inl (O d _ hd (by simp))
    · exact Or.inr (Or.inl (O d _ hd (by simp)))
    · exact Or.inr (Or.inr (O d _ hd (by simp)))
  · exact fun d hd => h.retDone d (O d _ hd (by simp))
  · exact fun d a b hd => h.bumpRange d a b (O d _ hd (by simp))
  · exact fun d k hd => h.scanRange d k (O d _ hd (by simp))
  · intro d hd
    have : d ≠ c := by omega
    simp [this]; exact h.coreRange d hd
  · by_cases e : 0 = c
    · subst e; simp
    · simp [e]; exact h.mainNotIdle
  · intro d hd
    refine h.waitMain d ?_
    rcases hd with hd | hd
    · exact Or.inl (O d _ hd (by simp))
    · exact Or.inr (O d _ hd (by simp))

theorem inv_complete {it : Item} {s : St} {c b : Nat} (h : Inv it s) (hc : c ≤ it.wakeup)
    (hp : s.pc c = .complete b) :
    Inv it { s with completed := s.completed + 1, pc := upd s.pc c .own, doneL := b :: s.doneL } := by
  have H : ∀ d b', Holds it (upd s.pc c .own d) b' ↔ Holds it (s.pc d) b' := by
    intro d b'
    by_cases e : d = c
    · subst e; rw [hp]; simp [Holds]
    · simp [e]
  have O : ∀ d q, upd s.pc c .own d = q → (q ≠ .own) → s.pc d = q ∧ d ≠ c := by
    intro d q hd hq
    rcases upd_cases hd with ⟨_, h2⟩ | ⟨h1, h2⟩
    · exact absurd h2.symm hq
    · exact ⟨h2, h1⟩
  constructor
  · exact h.logNodup
  · exact h.logClaimed
  · exact fun d b hd => h.holdClaimed d b ((H d b).mp hd)
  · exact fun d b hd => h.holdNotLog d b ((H d b).mp hd)
  · exact fun d e b hd he => h.holdInj d e b ((H d b).mp hd) ((H e b).mp he)
  · intro b' hb
    rcases h.claimedCov b' hb with h1 | ⟨d, hd, h1⟩
    · exact Or.inl h1
    · exact Or.inr ⟨d, hd, (H d b').mpr h1⟩
  · exact h.bumpLen
  · exact h.bumpNodup
  · exact h.bumpClaimed
  · exact fun d ch pos hd => h.bumpFresh d ch pos (O d _ hd (by simp)).1
  · simp [h.doneLen]
  · exact List.nodup_cons.mpr ⟨h.compFresh c b hp, h.doneNodup⟩
  · intro b' hb
    rcases List.mem_cons.mp hb with rfl | hb
    · exact h.compLog c _ hp
    · exact h.doneLog b' hb
  · exact fun d b hd => h.compLog d b (O d _ hd (by simp)).1
  · intro d b' hd hmem
    obtain ⟨h1, h2⟩ := O d _ hd (by simp)
    rcases List.mem_cons.mp hmem with rfl | hm
    · exact h2 (h.compInj d c _ h1 hp)
    · exact h.compFresh d b' h1 hm
  · exact fun d e b hd he => h.compInj d e b (O d _ hd (by simp)).1 (O e _ he (by simp)).1
  · intro b' hb
    rcases h.logCov b' hb with h1 | ⟨d, hd, h1⟩
    · exact Or.inl (List.mem_cons_of_mem _ h1)
    · by_cases e : d = c
      · subst e; rw [hp] at h1; cases h1; exact Or.inl List.mem_cons_self
      · exact Or.inr ⟨d, hd, by simpa [e] using h1⟩
  · exact fun d hd => h.checkEx d (O d _ hd (by simp)).1
  · exact fun d k hd => h.scanEx d k (O d _ hd (by simp)).1
  · intro d hd
    refine h.retAll d ?_
    rcases hd with hd | hd | hd
    · exact Or.inl (O d _ hd (by simp)).1
    · exact Or.inr (Or.inl (O d _ hd (by simp)).1)
    · exact Or.inr (Or.inr (O d _ hd (by simp)).1)
  · exact fun d hd => Nat.le_succ_of_le (h.retDone d (O d _ hd (by simp)).1)
  · exact fun d a b hd => h.bumpRange d a b (O d _ hd (by simp)).1
  · exact fun d k hd => h.scanRange d k (O d _ hd (by simp)).1
  · intro d hd
    have : d ≠ c := by omega
    simp [this]; exact h.coreRange d hd
  · by_cases e : 0 = c
    · subst e; simp
    · simp [e]; exact h.mainNotIdle
  · intro d hd
    refine h.waitMain d ?_
    rcases hd with hd | hd
    · exact Or.inl (O d _ hd (by simp)).1
    · exact Or.inr (O d _ hd (by simp)).1

theorem Inv.claimed_lt {it : Item} {s : St} (wf : WF it) {b : Nat} (hb : Claimed it s b) :
    b < it.blockLast := by
  obtain ⟨ch, pos, h1, h2, _, rfl⟩ := hb
  exact logical_lt wf h1 h2

/-- The early exit `BlockNext >= BlockLast` (threads.h:372) is sound: everything is claimed. -/
theorem Inv.exit_sound {it : Item} {s : St} (wf : WF it) (h : Inv it s)
    (hb : it.blockLast ≤ s.blockNext) : AllClaimed it s := by
  have full := nodup_full h.bumpNodup (fun b hb => Inv.claimed_lt wf (h.bumpClaimed b hb))
    (by rw [h.bumpLen]; exact hb)
  intro ch hch
  refine Nat.le_of_not_lt fun hlt => ?_
  have hcl := h.bumpClaimed _ (full _ (logical_lt wf hch hlt))
  obtain ⟨ch', pos', h1, h2, h3, h4⟩ := hcl
  obtain ⟨rfl, rfl⟩ := logical_inj hch h1 hlt h2 h4
  omega

theorem inv_step {it : Item} (wf : WF it) {s : St} (h : Inv it s) (c : Nat) :
    Inv it (step it s c) := by
  unfold step
  split
  · exact h
  rename_i hc
  have hc : c ≤ it.wakeup := Nat.le_of_not_lt hc
  have hct : c < it.threads := Nat.lt_succ_of_le hc
  split
  · rename_i hp
    refine inv_silent h hc (by simp [hp, Holds]) (by simp [hp]) (by simp [Holds]) (by simp) (by simp)
      (by simp) (by simp) (by simp) (by simp) (by simp) (by simp)
  · rename_i hp
    exact inv_claim h hc hct (by simp [hp, Holds]) (by simp [hp]) (by simp [Holds]) (by simp) (by simp)
      (by simp) (by simp) (by simp) (by simp)
  · rename_i ch pos hp
    exact inv_bump h hc hp
  · rename_i hp
    split
    · rename_i hb
      refine inv_silent h hc (by simp [hp, Holds]) (by simp [hp]) (by simp [Holds]) (by simp) (by simp)
        (by simp) (by simp) (fun _ => h.exit_sound wf hb) (by simp) (by simp) (by simp)
    · refine inv_silent h hc (by simp [hp, Holds]) (by simp [hp]) (by simp [Holds]) (by simp) (by simp)
        (by simp) ?_ (by simp) (by simp) (by simp) (by simp)
      intro i hi; cases hi
      exact ⟨Nat.zero_le _, h.checkEx c hp, by intro j hj; omega⟩
  · rename_i i hp
    have hs := h.scanEx c i hp
    have hr := h.scanRange c i hp
    split
    · rename_i hi
      refine inv_silent h hc (by simp [hp, Holds]) (by simp [hp]) (by simp [Holds]) (by simp) (by simp)
        (by simp) (by simp) (fun _ => ?_) (by simp) (by simp) (by simp)
      intro j hj
      exact hs.2 j (by unfold Item.threads at hj; omega) hj
    · rename_i hi
      have hit : i < it.threads := by unfold Item.threads; omega
      split
      · rename_i hic
        refine inv_silent h hc (by simp [hp, Holds]) (by simp [hp]) (by simp [Holds]) (by simp) (by simp)
          (by simp) ?_ (by simp) (by simp) (by simp) (by simp)
        intro k hk; cases hk
        refine ⟨hit, hs.1, ?_⟩
        intro j hj hj2
        by_cases e : j = i
        · subst e; subst hic; exact hs.1
        · exact hs.2 j (by omega) hj2
      · refine inv_claim h hc hit (by simp [hp, Holds]) (by simp [hp]) (by simp [Holds]) (by simp) (by simp)
          (by simp) ?_ (by simp) (by simp)
        intro k hk; cases hk
        exact ⟨hit, rfl, hs.1, hs.2⟩
  · rename_i b hp; exact inv_run h hc hp
  · rename_i b hp; exact inv_complete h hc hp
  · rename_i hp
    have ha := h.retAll c (Or.inl hp)
    refine inv_silent h hc (by simp [hp, Holds]) (by simp [hp]) ?_ ?_ ?_ ?_ ?_ (fun _ => ha) ?_ ?_ ?_
    all_goals (split <;> simp_all [Holds])
  · rename_i hp
    have ha := h.retAll c (Or.inr (Or.inl hp))
    split
    · exact h
    · refine inv_silent h hc (by simp [hp, Holds]) (by simp [hp]) (by simp [Holds]) (by simp) (by simp)
        (by simp) (by simp) (fun _ => ha) (fun _ => by omega) (by simp)
        (fun _ => h.waitMain c (Or.inl hp))
  · exact h

theorem inv_exec {it : Item} (wf : WF it) (sched : List Nat) : Inv it (exec it sched) := by
  unfold exec
  have : ∀ (l : List Nat) s, Inv it s → Inv it (l.foldl (step it) s) := by
    intro l
    induction l with
    | nil => exact fun s h => h
    | cons c l ih => exact fun s h => ih _ (inv_step wf h c)
  exact this sched _ (inv_init it)

theorem inv_trace {it : Item} (wf : WF it) (σ : Nat → Nat) : ∀ t, Inv it (trace it σ t)
  | 0 => inv_init it
  | t + 1 => inv_step wf (inv_trace wf σ t) _

end Pnumpy.Work
