import Verif.Spec.TermsLex
import Verif.Model.LexSort
import Verif.Props.Strings
/-
Sorting by several keys.
-/
namespace Pnumpy.Lex
open Pnumpy.Sort Pnumpy.ParSort Pnumpy.Str Spec Pnumpy.Props

/-- A stable sort refines the order the list had. -/
theorem SS_refine {lt : Nat → Nat → Bool} (hw : SWO lt) {ix' ix : List Nat} (hs : SS lt ix' ix) {R : Nat → Nat → Prop}
    (hR : ix.Pairwise R) : ix'.Pairwise fun i j => lt j i = false ∧ (lt i j = false → R i j) := by
  rw [List.pairwise_iff_forall_sublist]
  intro i j hij
  have h1 := (List.pairwise_iff_forall_sublist.1 hs.asc) hij
  refine ⟨h1, fun h2 => ?_⟩
  have hii := hw.irrefl i
  have hf : [i, j].filter (eqv lt i) = [i, j] := by simp [eqv, h1, h2, hii]
  have hsub := hij.filter (eqv lt i)
  rw [hf, hs.stable i] at hsub
  exact (List.pairwise_iff_forall_sublist.1 hR) (hsub.trans List.filter_sublist)

/-- What one key does: rearrange, sort by the key, keep the previous order of equal keys. -/
def Refines (c : Col) (ix' ix : List Nat) : Prop :=
  ix'.Perm ix ∧ ∀ R : Nat → Nat → Prop, ix.Pairwise R →
    ix'.Pairwise fun i j => ¬ c.before j i ∧ (¬ c.before i j → R i j)

/-- The comparison used for a column. -/
def colLt : Col → Nat → Nat → Bool
  | .num t v => keyLt (opsArg t).lt v
  | .str _ _ v => keyLt (lexKey nums) v
  | .half _ => fun _ _ => false

theorem colLt_swo (c : Col) : SWO (colLt c) := by
  cases c with
  | num t v => exact keyLt_swo (opsArg_ok t).swo v
  | str u len v => exact keyLt_swo (lexKey_swo _) v
  | half v => exact ⟨(fun _ _ h => nomatch h), (fun _ _ _ h => nomatch h)⟩

theorem colLt_iff {c : Col} (hg : c.Good) {i j : Nat} (hi : i < c.rows) (hj : j < c.rows) :
    colLt c i j = true ↔ c.before i j := by
  cases c with
  | num t v => exact keyLt_iff v hg.1 i j
  | str u len v => exact keyLt_lex v hg hi hj
  | half v => exact absurd hg id

theorem SS_refines {c : Col} (hg : c.Good) {ix' ix : List Nat} (hix : ∀ i ∈ ix, i < c.rows) (hs : SS (colLt c) ix' ix) :
    Refines c ix' ix := by
  refine ⟨hs.perm, fun R hR => ?_⟩
  refine List.Pairwise.imp_of_mem (fun {i j} hi hj h => ?_) (SS_refine (colLt_swo c) hs hR)
  have hi' := hix i (hs.perm.mem_iff.1 hi)
  have hj' := hix j (hs.perm.mem_iff.1 hj)
  rw [Bool.eq_false_iff, ne_eq, Bool.eq_false_iff, ne_eq, colLt_iff hg hi' hj', colLt_iff hg hj' hi'] at h
  exact h

/-- One serial pass. -/
theorem passSerial_ok {c : Col} (hg : c.Good) (ix w : List Nat) (hix : ∀ i ∈ ix, i < c.rows) (hn : ix.length < 2 ^ 63)
    (hw : w.length = ix.length / 2) : ∃ ix', passSerial .merge c ix w = some ix' ∧ SS (colLt c) ix' ix := by
  cases c with
  | num t v =>
    obtain ⟨S', W', h1, h2, h3⟩ := argsortFn_correct (opsArg_ok t) .merge v [] ix [] [] w [] (by omega) hn
      (fun i hi => ⟨hix i hi, fun _ => goodIx_of hg.2 (hix i hi)⟩)
    refine ⟨S', ?_, h1.2.2 rfl⟩
    simp only [List.nil_append, List.append_nil, List.length_nil] at h3
    show (argsortFn (opsArg t) .merge v ix w 0 ix.length 0).map _ = _
    rw [h3]; rfl
  | str u len v =>
    obtain ⟨ix', h1, h2⟩ := argsortStr_ok (computes_str len) (lexKey_swo _) v ix w hw hg hix
    exact ⟨ix', h1, h2⟩
  | half v => exact absurd hg id

theorem pass_SS {c : Col} (hg : c.Good) {ix ix' : List Nat} (hix : ∀ i ∈ ix, i < c.rows) (hn : ix.length < 2 ^ 63)
    (hstr : Col.isStr c → ix.length < 65536) (hp : Pass .merge c ix ix') : SS (colLt c) ix' ix := by
  cases hp with
  | serial c ix ix' w hw h =>
    obtain ⟨b, h1, h2⟩ := passSerial_ok hg ix w hix hn hw
    rw [h] at h1; obtain rfl := Option.some.inj h1
    exact h2
  | threaded t v ix w s hl hw h h8 =>
    exact ((parArg_inv t .merge v ix w hix hw hl hn (Or.inr hg.2) s h).sorted rfl h8).2.2 rfl
  | threadedStr u len v ix w s hl hw h h8 => exact absurd (hstr trivial) (by omega)

theorem passes_order {cs : List Col} : ∀ {ix ix' : List Nat} {n : Nat}, (∀ c ∈ cs, c.Good ∧ c.rows = n) → (∀ i ∈ ix, i < n) →
    ix.length < 2 ^ 63 → ((∃ c ∈ cs, Col.isStr c) → ix.length < 65536) → Passes .merge cs ix ix' →
    ix'.Perm ix ∧ ∀ R : Nat → Nat → Prop, ix.Pairwise R →
      ix'.Pairwise fun i j => ¬ RowBefore (cs.map Col.before) j i ∧ (¬ RowBefore (cs.map Col.before) i j → R i j) := by
  induction cs with
  | nil =>
    intro ix ix' n hc hix hn hs hp
    cases hp
    refine ⟨List.Perm.refl _, fun R hR => hR.imp fun h => ?_⟩
    exact ⟨id, fun _ => h⟩
  | cons c cs ih =>
    intro ix ix'' n hc hix hn hs hp
    cases hp with
    | @cons _ _ _ ix' _ h hps =>
      obtain ⟨hg, hrows⟩ := hc c (by simp)
      obtain ⟨p1, p2⟩ := SS_refines hg (by rw [hrows]; exact hix) (pass_SS hg (by rw [hrows]; exact hix) hn
        (fun hi => hs ⟨c, by simp, hi⟩) h)
      obtain ⟨q1, q2⟩ := ih (n := n) (fun c' hc' => hc c' (by simp [hc'])) (fun i hi => hix i (p1.mem_iff.1 hi))
        (by rw [p1.length_eq]; exact hn)
        (fun ⟨c', h1, h2⟩ => by rw [p1.length_eq]; exact hs ⟨c', by simp [h1], h2⟩) hps
      refine ⟨q1.trans p1, fun R hR => (q2 _ (p2 R hR)).imp fun {i j} h => ?_⟩
      simp only [List.map_cons, RowBefore]
      obtain ⟨h1, h2⟩ := h
      refine ⟨fun hx => ?_, fun hx => ?_⟩
      · rcases hx with hx | ⟨hx, hk⟩
        · exact h1 hx
        · exact (h2 hx).1 hk
      · have h3 : ¬ RowBefore (cs.map Col.before) i j := fun h => hx (Or.inl h)
        exact (h2 h3).2 fun hk => hx (Or.inr ⟨h1, hk⟩)

/-- Some run always exists. -/
theorem passes_exist {cs : List Col} : ∀ {ix : List Nat} {n : Nat}, (∀ c ∈ cs, c.Good ∧ c.rows = n) → (∀ i ∈ ix, i < n) →
    ix.length < 2 ^ 63 → ∃ ix', Passes .merge cs ix ix' := by
  induction cs with
  | nil => intro ix n _ _ _; exact ⟨ix, .nil ix⟩
  | cons c cs ih =>
    intro ix n hc hix hn
    obtain ⟨hg, hrows⟩ := hc c (by simp)
    obtain ⟨ix', h1, h2⟩ := passSerial_ok hg ix (List.replicate (ix.length / 2) 0) (by rw [hrows]; exact hix) hn (by simp)
    obtain ⟨ix'', h3⟩ := ih (ix := ix') (n := n) (fun c' hc' => hc c' (by simp [hc'])) (fun i hi => hix i (h2.perm.mem_iff.1 hi))
      (by rw [h2.perm.length_eq]; exact hn)
    exact ⟨ix'', .cons (.serial c ix ix' _ (by simp) h1) h3⟩

/-! ### Partitions -/

/-- Cutoffs as documented: ascending, the last one is the number of rows. -/
structure ValidCut (cut : List Nat) (n : Nat) : Prop where
  asc : cut.Pairwise (· ≤ ·)
  last : cut.getLast? = some n

section
variable {cut : List Nat} {n : Nat}

theorem partHi_eq {t : Nat} (ht : t < cut.length) : partHi cut t = cut[t] := by
  unfold partHi; rw [List.getElem?_eq_getElem ht]; rfl

theorem partLo_succ {t : Nat} : partLo cut (t + 1) = partHi cut t := by
  unfold partLo partHi; simp

theorem ValidCut.hi_le (h : ValidCut cut n) {t : Nat} (ht : t < cut.length) : partHi cut t ≤ n := by
  rw [partHi_eq ht]
  have hl := h.last
  rw [List.getLast?_eq_getElem?, List.getElem?_eq_getElem (by omega)] at hl
  have hl := Option.some.inj hl
  rcases Nat.lt_or_ge t (cut.length - 1) with h1 | h1
  · rw [← hl]; exact (List.pairwise_iff_getElem.1 h.asc) t (cut.length - 1) ht (by omega) h1
  · have : t = cut.length - 1 := by omega
    subst this; rw [hl]

theorem ValidCut.hi_mono (h : ValidCut cut n) {t t' : Nat} (ht : t ≤ t') (ht' : t' < cut.length) : partHi cut t ≤ partHi cut t' := by
  rw [partHi_eq (by omega), partHi_eq ht']
  rcases Nat.lt_or_ge t t' with h1 | h1
  · exact (List.pairwise_iff_getElem.1 h.asc) t t' (by omega) ht' h1
  · obtain rfl : t = t' := by omega
    exact Nat.le_refl _

theorem ValidCut.lo_le (h : ValidCut cut n) {t : Nat} (ht : t < cut.length) : partLo cut t ≤ partHi cut t := by
  cases t with
  | zero => simp [partLo]
  | succ t => rw [partLo_succ]; exact h.hi_mono (by omega) ht

theorem ValidCut.disjoint (h : ValidCut cut n) {t t' : Nat} (hne : t < t') (ht' : t' < cut.length) :
    partHi cut t ≤ partLo cut t' := by
  obtain ⟨q, rfl⟩ : ∃ q, t' = q + 1 := ⟨t' - 1, by omega⟩
  rw [partLo_succ]
  exact h.hi_mono (by omega) (by omega)

/-- Every position belongs to a partition. -/
theorem ValidCut.cover (h : ValidCut cut n) {p : Nat} (hp : p < n) :
    ∃ t, t < cut.length ∧ partLo cut t ≤ p ∧ p < partHi cut t := by
  have hne : cut ≠ [] := by rintro rfl; exact absurd h.last (by simp)
  have hpos : 0 < cut.length := List.length_pos_iff.2 hne
  have hlast : partHi cut (cut.length - 1) = n := by
    rw [partHi_eq (by omega)]
    have := h.last
    rw [List.getLast?_eq_getElem?, List.getElem?_eq_getElem (by omega)] at this
    exact Option.some.inj this
  have hex : ∃ t, t < cut.length ∧ p < partHi cut t := ⟨cut.length - 1, by omega, by omega⟩
  classical
  obtain ⟨ht, hp2⟩ := Nat.find_spec hex
  refine ⟨Nat.find hex, ht, ?_, hp2⟩
  generalize hq : Nat.find hex = t at ht hp2
  cases t with
  | zero => simp [partLo]
  | succ t =>
    rw [partLo_succ]
    by_contra hlt
    exact Nat.find_min hex (m := t) (by omega) ⟨by omega, by omega⟩

/-- What a partition holds after one key; `D t` is the effect of the sort on partition `t`. -/
structure CInv (D : Nat → List Nat → List Nat → Prop) (cut : List Nat) (n : Nat) (a0 : List Nat) (s : CS) : Prop where
  len : s.a.length = n
  idle : ∀ t, t < cut.length → s.st t = .idle → seg s.a (partLo cut t) (partHi cut t) = seg a0 (partLo cut t) (partHi cut t)
  run : ∀ t snap, s.st t = .running snap → t < cut.length ∧ snap = seg a0 (partLo cut t) (partHi cut t)
  done : ∀ t, t < cut.length → s.st t = .done →
    D t (seg s.a (partLo cut t) (partHi cut t)) (seg a0 (partLo cut t) (partHi cut t))

/-- The serial sort of every partition with relative indices has the effect `D` and keeps the length. -/
def Effect (c : Col) (cut : List Nat) (D : Nat → List Nat → List Nat → Prop) : Prop :=
  ∀ t snap w S', t < cut.length → (∀ i ∈ snap, i < partHi cut t - partLo cut t) → snap.length = partHi cut t - partLo cut t →
    w.length = snap.length / 2 → passSerial .merge (c.slice (partLo cut t) (partHi cut t)) snap w = some S' →
    D t S' snap ∧ S'.length = snap.length

theorem slice_rows (c : Col) {lo hi : Nat} (h : hi ≤ c.rows) : (c.slice lo hi).rows = hi - lo := by
  cases c <;> simp [Col.slice, Col.rows] at h ⊢ <;> omega

theorem slice_good {c : Col} (h : c.Good) (lo hi : Nat) : (c.slice lo hi).Good := by
  have hm : ∀ {α : Type} (v : List α) x, x ∈ (v.drop lo).take (hi - lo) → x ∈ v := fun v x hx =>
    List.mem_of_mem_drop (List.mem_of_mem_take hx)
  cases c with
  | num t v => exact ⟨fun ht x hx => h.1 ht x (hm v x hx), fun x hx => h.2 x (hm v x hx)⟩
  | str u len v => exact fun s hs => h s (hm v s hs)
  | half v => exact h

/-- Every partition of the start array holds indices relative to the partition. -/
def Rel (cut : List Nat) (a0 : List Nat) : Prop :=
  ∀ t, t < cut.length → ∀ i ∈ seg a0 (partLo cut t) (partHi cut t), i < partHi cut t - partLo cut t

/-- Partition tasks whose effect on a partition is given by a relation. -/
inductive CStepG (run : Nat → List Nat → List Nat → Prop) (cut : List Nat) : CS → CS → Prop where
  | start (s : CS) (t : Nat) (ht : t < cut.length) (h : s.st t = .idle) :
      CStepG run cut s { s with st := Function.update s.st t (.running (seg s.a (partLo cut t) (partHi cut t))) }
  | scribble (s : CS) (t : Nat) (snap a' : List Nat) (h : s.st t = .running snap)
      (ha : Within (partLo cut t) (partHi cut t) a' s.a) : CStepG run cut s { s with a := a' }
  | commit (s : CS) (t : Nat) (snap S' : List Nat) (h : s.st t = .running snap) (hrun : run t snap S') :
      CStepG run cut s { a := splice s.a (partLo cut t) S', st := Function.update s.st t .done }

/-- The effect of `run` on every partition with relative indices is `D`, and it keeps the length. -/
def EffectG (run : Nat → List Nat → List Nat → Prop) (cut : List Nat) (D : Nat → List Nat → List Nat → Prop) : Prop :=
  ∀ t snap S', t < cut.length → (∀ i ∈ snap, i < partHi cut t - partLo cut t) → snap.length = partHi cut t - partLo cut t →
    run t snap S' → D t S' snap ∧ S'.length = snap.length

theorem CInv.stepG {run : Nat → List Nat → List Nat → Prop} {D : Nat → List Nat → List Nat → Prop} (hD : EffectG run cut D)
    (hcut : ValidCut cut n) {a0 : List Nat}
    (h0 : a0.length = n) (hrel : Rel cut a0) {s s' : CS} (i : CInv D cut n a0 s) (h : CStepG run cut s s') : CInv D cut n a0 s' := by
  cases h with
  | start t ht hi =>
    refine ⟨i.len, fun t' ht' hi' => ?_, fun t' snap hr => ?_, fun t' ht' hd => ?_⟩
    · by_cases e : t' = t
      · subst e; simp at hi'
      · simp only [Function.update_of_ne e] at hi'; exact i.idle t' ht' hi'
    · by_cases e : t' = t
      · subst e
        simp only [Function.update_self, TaskSt.running.injEq] at hr
        exact ⟨ht, hr ▸ i.idle t' ht hi⟩
      · simp only [Function.update_of_ne e] at hr; exact i.run t' snap hr
    · by_cases e : t' = t
      · subst e; simp at hd
      · simp only [Function.update_of_ne e] at hd; exact i.done t' ht' hd
  | scribble t snap a' hr ha =>
    obtain ⟨ht, _⟩ := i.run t snap hr
    have hseg : ∀ t', t' < cut.length → t' ≠ t → seg a' (partLo cut t') (partHi cut t') = seg s.a (partLo cut t') (partHi cut t') := by
      intro t' ht' hne
      refine ha.seg ?_
      rcases Nat.lt_or_ge t' t with h1 | h1
      · exact Or.inl (hcut.disjoint h1 ht)
      · exact Or.inr (hcut.disjoint (by omega) ht')
    refine ⟨ha.1.trans i.len, fun t' ht' hi' => ?_, i.run, fun t' ht' hd => ?_⟩
    · have e : t' ≠ t := fun e => by subst e; rw [hr] at hi'; cases hi'
      rw [hseg t' ht' e]; exact i.idle t' ht' hi'
    · have e : t' ≠ t := fun e => by subst e; rw [hr] at hd; cases hd
      show D _ (seg a' _ _) _
      rw [hseg t' ht' e]; exact i.done t' ht' hd
  | commit t snap S' hr hrun =>
    obtain ⟨ht, hsnap⟩ := i.run t snap hr
    have hhi := hcut.hi_le ht
    have hlo := hcut.lo_le ht
    have hsl : snap.length = partHi cut t - partLo cut t := by rw [hsnap]; exact seg_length (by omega)
    obtain ⟨h2, hS⟩ := hD t snap S' ht (by rw [hsnap]; exact hrel t ht) hsl hrun
    have hsp : Within (partLo cut t) (partHi cut t) (splice s.a (partLo cut t) S') s.a := by
      have e1 : s.a = s.a.take (partLo cut t) ++ seg s.a (partLo cut t) (partHi cut t) ++ s.a.drop (partHi cut t) := by
        unfold seg
        rw [List.append_assoc]
        have e : s.a.drop (partHi cut t) = (s.a.drop (partLo cut t)).drop (partHi cut t - partLo cut t) := by
          rw [List.drop_drop]; congr 1; omega
        rw [e, List.take_append_drop, List.take_append_drop]
      have e2 : splice s.a (partLo cut t) S' = s.a.take (partLo cut t) ++ S' ++ s.a.drop (partHi cut t) := by
        unfold splice; rw [hS, hsl]; congr 2; omega
      have hl := i.len
      rw [e2]
      conv => rhs; rw [e1]
      exact within_mid (by simp; omega) (by rw [seg_length (by omega)]; simp; omega) (by rw [seg_length (by omega)]; omega)
    have hmid : seg (splice s.a (partLo cut t) S') (partLo cut t) (partHi cut t) = S' := by
      have hl := i.len
      unfold splice
      exact seg_mid (by simp; omega) (by simp; omega)
    have hseg : ∀ t', t' < cut.length → t' ≠ t → seg (splice s.a (partLo cut t) S') (partLo cut t') (partHi cut t') =
        seg s.a (partLo cut t') (partHi cut t') := by
      intro t' ht' hne
      refine hsp.seg ?_
      rcases Nat.lt_or_ge t' t with h1 | h1
      · exact Or.inl (hcut.disjoint h1 ht)
      · exact Or.inr (hcut.disjoint (by omega) ht')
    refine ⟨hsp.1.trans i.len, fun t' ht' hi' => ?_, fun t' snap' hr' => ?_, fun t' ht' hd => ?_⟩
    · by_cases e : t' = t
      · subst e; simp at hi'
      · simp only [Function.update_of_ne e] at hi'
        show seg (splice s.a (partLo cut t) S') _ _ = _
        rw [hseg t' ht' e]; exact i.idle t' ht' hi'
    · by_cases e : t' = t
      · subst e; simp at hr'
      · simp only [Function.update_of_ne e] at hr'; exact i.run t' snap' hr'
    · show D _ (seg (splice s.a (partLo cut t) S') _ _) _
      by_cases e : t' = t
      · subst e; rw [hmid, ← hsnap]; exact h2
      · simp only [Function.update_of_ne e] at hd
        rw [hseg t' ht' e]; exact i.done t' ht' hd

theorem CInv.step {c : Col} {D : Nat → List Nat → List Nat → Prop} (hD : Effect c cut D) (hcut : ValidCut cut n) {a0 : List Nat}
    (h0 : a0.length = n) (hrel : Rel cut a0) {s s' : CS} (i : CInv D cut n a0 s) (h : CStep c cut s s') : CInv D cut n a0 s' := by
  refine i.stepG (run := fun t snap S' => ∃ w : List Nat, w.length = snap.length / 2 ∧
      passSerial .merge (c.slice (partLo cut t) (partHi cut t)) snap w = some S')
    (fun t snap S' ht h1 h2 ⟨w, hw, hr⟩ => hD t snap w S' ht h1 h2 hw hr) hcut h0 hrel ?_
  cases h with
  | start t ht hi => exact .start s t ht hi
  | scribble t snap a' hr ha => exact .scribble s t snap a' hr ha
  | commit t snap S' w hr hw hrun => exact .commit s t snap S' hr ⟨w, hw, hrun⟩

theorem CInv.reach {c : Col} {D : Nat → List Nat → List Nat → Prop} (hD : Effect c cut D) (hcut : ValidCut cut n) {a0 : List Nat}
    (h0 : a0.length = n) (hrel : Rel cut a0) {s : CS} (h : CReach c cut { a := a0, st := fun _ => .idle } s) : CInv D cut n a0 s := by
  induction h with
  | start => exact ⟨h0, fun _ _ _ => rfl, (fun _ _ h => nomatch h), (fun _ _ h => nomatch h)⟩
  | step _ hs ih => exact ih.step hD hcut h0 hrel hs

theorem effect_good {c : Col} (hg : c.Good) (hrows : c.rows = n) (hn : n < 2 ^ 63) (hcut : ValidCut cut n) :
    Effect c cut fun t => SS (colLt (c.slice (partLo cut t) (partHi cut t))) := by
  intro t snap w S' ht hrel hsl hw hrun
  have hhi := hcut.hi_le ht
  obtain ⟨b, h1, h2⟩ := passSerial_ok (slice_good hg (partLo cut t) (partHi cut t)) snap w
    (by rw [slice_rows c (by omega)]; exact hrel) (by omega) hw
  rw [hrun] at h1
  obtain rfl := Option.some.inj h1
  exact ⟨h2, h2.perm.length_eq⟩

theorem cutPass_SS {c : Col} (hg : c.Good) (hrows : c.rows = n) (hn : n < 2 ^ 63) (hcut : ValidCut cut n) {ix ix' : List Nat}
    (h0 : ix.length = n) (hrel : Rel cut ix) (h : CutPass c cut ix ix') :
    ix'.length = n ∧ ∀ t, t < cut.length →
      SS (colLt (c.slice (partLo cut t) (partHi cut t))) (seg ix' (partLo cut t) (partHi cut t)) (seg ix (partLo cut t) (partHi cut t)) := by
  obtain ⟨s, h1, h2, rfl⟩ := h
  have i := CInv.reach (effect_good hg hrows hn hcut) hcut h0 hrel h1
  exact ⟨i.len, fun t ht => i.done t ht (h2 t ht)⟩

/-- What the passes do to partition `t`. -/
theorem cutPasses_order {cs : List Col} : ∀ {ix ix' : List Nat}, (∀ c ∈ cs, c.Good ∧ c.rows = n) → n < 2 ^ 63 → ValidCut cut n →
    ix.length = n → Rel cut ix → CutPasses cut cs ix ix' →
    ix'.length = n ∧ ∀ t, t < cut.length →
      (seg ix' (partLo cut t) (partHi cut t)).Perm (seg ix (partLo cut t) (partHi cut t)) ∧
      ∀ R : Nat → Nat → Prop, (seg ix (partLo cut t) (partHi cut t)).Pairwise R →
        (seg ix' (partLo cut t) (partHi cut t)).Pairwise fun i j =>
          ¬ RowBefore (cs.map fun c => (c.slice (partLo cut t) (partHi cut t)).before) j i ∧
          (¬ RowBefore (cs.map fun c => (c.slice (partLo cut t) (partHi cut t)).before) i j → R i j) := by
  induction cs with
  | nil =>
    intro ix ix' hc hn hcut h0 hrel hp
    cases hp
    exact ⟨h0, fun t ht => ⟨List.Perm.refl _, fun R hR => hR.imp fun h => ⟨id, fun _ => h⟩⟩⟩
  | cons c cs ih =>
    intro ix ix'' hc hn hcut h0 hrel hp
    cases hp with
    | @cons _ _ _ ix' _ h hps =>
      obtain ⟨hg, hrows⟩ := hc c (by simp)
      obtain ⟨l1, p⟩ := cutPass_SS hg hrows hn hcut h0 hrel h
      have hrel' : Rel cut ix' := fun t ht i hi => hrel t ht i ((p t ht).perm.mem_iff.1 hi)
      obtain ⟨l2, q⟩ := ih (fun c' hc' => hc c' (by simp [hc'])) hn hcut l1 hrel' hps
      refine ⟨l2, fun t ht => ?_⟩
      have hhi := hcut.hi_le ht
      obtain ⟨p1, p2⟩ := SS_refines (slice_good hg (partLo cut t) (partHi cut t))
        (by rw [slice_rows c (by omega)]; exact hrel t ht) (p t ht)
      obtain ⟨q1, q2⟩ := q t ht
      refine ⟨q1.trans p1, fun R hR => (q2 _ (p2 R hR)).imp fun {i j} h => ?_⟩
      simp only [List.map_cons, RowBefore]
      obtain ⟨h1, h2⟩ := h
      refine ⟨fun hx => ?_, fun hx => ?_⟩
      · rcases hx with hx | ⟨hx, hk⟩
        · exact h1 hx
        · exact (h2 hx).1 hk
      · have h3 : ¬ RowBefore (cs.map fun c => (c.slice (partLo cut t) (partHi cut t)).before) i j := fun h => hx (Or.inl h)
        exact (h2 h3).2 fun hk => hx (Or.inr ⟨h1, hk⟩)

/-- The partition tasks can always be carried out. -/
theorem cutPass_exists {c : Col} (hg : c.Good) (hrows : c.rows = n) (hn : n < 2 ^ 63) (hcut : ValidCut cut n) {ix : List Nat}
    (h0 : ix.length = n) (hrel : Rel cut ix) : ∃ ix', CutPass c cut ix ix' := by
  suffices h : ∀ m, m ≤ cut.length → ∃ s, CReach c cut { a := ix, st := fun _ => .idle } s ∧
      ∀ t, s.st t = if t < m then .done else .idle by
    obtain ⟨s, h1, h2⟩ := h cut.length (Nat.le_refl _)
    exact ⟨s.a, s, h1, fun t ht => by rw [h2 t, if_pos ht], rfl⟩
  intro m
  induction m with
  | zero => intro _; exact ⟨_, .start, fun t => by simp⟩
  | succ m ih =>
    intro hm
    obtain ⟨s, h1, h2⟩ := ih (by omega)
    have i := CInv.reach (effect_good hg hrows hn hcut) hcut h0 hrel h1
    have hi : s.st m = .idle := by rw [h2 m, if_neg (by omega)]
    have hsn := i.idle m (by omega) hi
    have hhi := hcut.hi_le (t := m) (by omega)
    obtain ⟨S', e1, e2⟩ := passSerial_ok (slice_good hg (partLo cut m) (partHi cut m)) (seg s.a (partLo cut m) (partHi cut m))
      (List.replicate ((seg s.a (partLo cut m) (partHi cut m)).length / 2) 0)
      (by rw [slice_rows c (by omega), hsn]; exact hrel m (by omega)) (by rw [seg_length (by rw [i.len]; exact hhi)]; omega) (by simp)
    refine ⟨_, (h1.step (.start s m (by omega) hi)).step (.commit _ m _ S' _ (by simp) (by simp) e1), fun t => ?_⟩
    by_cases e : t = m
    · subst e; simp
    · simp only [Function.update_of_ne e, h2 t]
      by_cases ht : t < m
      · rw [if_pos ht, if_pos (by omega)]
      · rw [if_neg ht, if_neg (by omega)]

theorem cutPasses_exist {cs : List Col} : ∀ {ix : List Nat}, (∀ c ∈ cs, c.Good ∧ c.rows = n) → n < 2 ^ 63 → ValidCut cut n →
    ix.length = n → Rel cut ix → ∃ ix', CutPasses cut cs ix ix' := by
  induction cs with
  | nil => intro ix _ _ _ _ _; exact ⟨ix, .nil ix⟩
  | cons c cs ih =>
    intro ix hc hn hcut h0 hrel
    obtain ⟨hg, hrows⟩ := hc c (by simp)
    obtain ⟨ix', h⟩ := cutPass_exists hg hrows hn hcut h0 hrel
    obtain ⟨l1, p⟩ := cutPass_SS hg hrows hn hcut h0 hrel h
    obtain ⟨ix'', h'⟩ := ih (fun c' hc' => hc c' (by simp [hc'])) hn hcut l1
      (fun t ht i hi => hrel t ht i ((p t ht).perm.mem_iff.1 hi))
    exact ⟨ix'', .cons h h'⟩

/-- The preparation loop. -/
theorem prepLoop_ok : ∀ (cut : List Nat) (out : List Nat) (p : Nat), cut.Pairwise (· ≤ ·) → (∀ e ∈ cut, p ≤ e ∧ e ≤ out.length) →
    ∃ out', prepLoop out p p cut = some out' ∧ out'.length = out.length ∧ (∀ q, q < p → out'[q]? = out[q]?) ∧
      ∀ t, t < cut.length → seg out' (if t = 0 then p else partHi cut (t - 1)) (partHi cut t) =
        List.range (partHi cut t - (if t = 0 then p else partHi cut (t - 1))) := by
  intro cut
  induction cut with
  | nil => intro out p _ _; exact ⟨out, rfl, rfl, fun _ _ => rfl, fun t ht => absurd ht (by simp)⟩
  | cons e cut ih =>
    intro out p hasc hb
    obtain ⟨h1, h2⟩ := hb e (by simp)
    have hp := List.pairwise_cons.1 hasc
    have hblit : blit (List.range (e - p)) 0 out p (e - p) = some (out.take p ++ List.range (e - p) ++ out.drop e) := by
      have e1 : out = out.take p ++ seg out p e ++ out.drop e := by
        unfold seg
        rw [List.append_assoc]
        have e' : out.drop e = (out.drop p).drop (e - p) := by rw [List.drop_drop]; congr 1; omega
        rw [e', List.take_append_drop, List.take_append_drop]
      have := blit_eq (A1 := []) (S := List.range (e - p)) (A2 := []) (B1 := out.take p) (G := seg out p e) (B2 := out.drop e)
        (s := 0) (d := p) (n := e - p) rfl (by simp; omega) (by simp) (by rw [seg_length h2])
      rw [← e1] at this
      simpa using this
    generalize ho : out.take p ++ List.range (e - p) ++ out.drop e = out1 at hblit
    have hl : out1.length = out.length := by rw [← ho]; simp; omega
    have hbef : ∀ q, q < p → out1[q]? = out[q]? := by
      intro q hq
      rw [← ho, List.append_assoc, List.getElem?_append_left (by simp; omega), List.getElem?_take, if_pos hq]
    have hseg : seg out1 p e = List.range (e - p) := by
      rw [← ho]; exact seg_mid (by simp; omega) (by simp; omega)
    obtain ⟨out', g1, g2, g3, g4⟩ := ih out1 e hp.2 (fun x hx => ⟨hp.1 x hx, by rw [hl]; exact (hb x (by simp [hx])).2⟩)
    refine ⟨out', ?_, g2.trans hl, fun q hq => (g3 q (by omega)).trans (hbef q hq), ?_⟩
    · unfold prepLoop
      rw [hblit]
      simp only [Option.bind_eq_bind, Option.bind_some]
      rw [show p + (e - p) = e by omega]; exact g1
    · intro t ht
      cases t with
      | zero =>
        have e0 : partHi (e :: cut) 0 = e := rfl
        rw [if_pos rfl, e0, ← hseg]
        apply List.ext_getElem?
        intro q
        by_cases hq : q < e - p
        · rw [seg_get hq, seg_get hq]; exact g3 _ (by omega)
        · unfold seg
          rw [List.getElem?_take, if_neg hq, List.getElem?_take, if_neg hq]
      | succ t =>
        have := g4 t (by simpa using ht)
        have e1 : partHi (e :: cut) (t + 1) = partHi cut t := rfl
        have e2 : partHi (e :: cut) (t + 1 - 1) = if t = 0 then e else partHi cut (t - 1) := by
          cases t with
          | zero => rfl
          | succ t => rfl
        rw [if_neg (by omega), e1, e2]; exact this

theorem prep_ok (hcut : ValidCut cut n) (out : List Nat) (ho : out.length = n) :
    ∃ ix0, prep cut out = some ix0 ∧ ix0.length = n ∧ ∀ t, t < cut.length →
      seg ix0 (partLo cut t) (partHi cut t) = List.range (partHi cut t - partLo cut t) := by
  obtain ⟨out', g1, g2, _, g4⟩ := prepLoop_ok cut out 0 hcut.asc (fun e he => by
    obtain ⟨t, ht, rfl⟩ := List.getElem_of_mem he
    have := hcut.hi_le ht
    rw [partHi_eq ht] at this
    omega)
  refine ⟨out', g1, g2.trans ho, fun t ht => ?_⟩
  have := g4 t ht
  have e : (if t = 0 then 0 else partHi cut (t - 1)) = partLo cut t := rfl
  rwa [e] at this

/-- Equal parts make equal arrays. -/
theorem ValidCut.ext (hcut : ValidCut cut n) {a b : List Nat} (ha : a.length = n) (hb : b.length = n)
    (h : ∀ t, t < cut.length → seg a (partLo cut t) (partHi cut t) = seg b (partLo cut t) (partHi cut t)) : a = b := by
  apply List.ext_getElem?
  intro p
  by_cases hp : p < n
  · obtain ⟨t, ht, h1, h2⟩ := hcut.cover hp
    have := congrArg (·[p - partLo cut t]?) (h t ht)
    rw [seg_get (by omega), seg_get (by omega), show partLo cut t + (p - partLo cut t) = p by omega] at this
    exact this
  · rw [List.getElem?_eq_none (by omega), List.getElem?_eq_none (by omega)]

end

end Pnumpy.Lex
