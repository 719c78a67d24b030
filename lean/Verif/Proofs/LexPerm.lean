import Verif.Props.LexSort
import Verif.Props.ArgMergeExact
/-
lexsort of arbitrary columns (NaN included): what it does to the index array.
-/
namespace Pnumpy.Lex
open Pnumpy.Sort Pnumpy.ParSort Pnumpy.Str Pnumpy.Props Spec

theorem good_sized {c : Col} (h : c.Good) : c.Sized := by
  cases c with
  | num => trivial
  | str => exact h
  | half => trivial

theorem slice_sized {c : Col} (h : c.Sized) (lo hi : Nat) : (c.slice lo hi).Sized := by
  cases c with
  | num t v => trivial
  | str u len v => exact fun s hs => h s (List.mem_of_mem_drop (List.mem_of_mem_take hs))
  | half v => trivial

/-- One serial pass. -/
theorem passSerial_perm {c : Col} (hg : c.Sized) (k : Kind) (ix w : List Nat) (hix : ∀ i ∈ ix, i < c.rows) (hn : ix.length < 2 ^ 63)
    (hw : w.length = ix.length / 2) : ∃ ix', passSerial k c ix w = some ix' ∧ ix'.Perm ix := by
  cases c with
  | num t v =>
    have h : ∃ S' W', S'.Perm ix ∧ argsortFn (opsArg t) k v ix w 0 ix.length 0 = some (S', W') := by
      by_cases hk : k = .merge
      · subst hk
        obtain ⟨S', W', h1, h2, h3⟩ := (pms_all (opsArg_ok t) v ix.length).1 [] ix [] [] w [] rfl (by omega) hix
        simp only [List.nil_append, List.append_nil, List.length_nil, Nat.zero_add] at h3
        exact ⟨S', W', h1, by simpa [argsortFn] using h3⟩
      · obtain ⟨S', W', h1, h2, h3⟩ := argsortFn_correct (opsArg_ok t) k v [] ix [] [] w [] (by omega) hn
          (fun i hi => ⟨hix i hi, fun h => absurd h hk⟩)
        simp only [List.nil_append, List.append_nil, List.length_nil] at h3
        exact ⟨S', W', h1.1, h3⟩
    obtain ⟨S', W', h1, h2⟩ := h
    refine ⟨S', ?_, h1⟩
    show (argsortFn (opsArg t) k v ix w 0 ix.length 0).map _ = _
    rw [h2]; rfl
  | str u len v =>
    obtain ⟨ix', h1, h2⟩ := argsortStr_ok (computes_str len) (lexKey_swo _) v ix w hw hg hix
    exact ⟨ix', h1, h2.perm⟩
  | half v => exact ⟨ix, rfl, List.Perm.refl _⟩

/-- The result does not depend on the content of the workspace. -/
theorem passSerial_det {c : Col} (hg : c.Sized) {ix w w' a b : List Nat} (hix : ∀ i ∈ ix, i < c.rows)
    (hw : w.length = ix.length / 2) (hw' : w'.length = ix.length / 2) (h1 : passSerial .merge c ix w = some a)
    (h2 : passSerial .merge c ix w' = some b) : a = b := by
  cases c with
  | num t v =>
    have key : ∀ w : List Nat, w.length = ix.length / 2 → argsortSerial (opsArg t) .merge v ix w =
        some (argMs (keyLt (opsArg t).lt v) (keyLt (opsArg t).rawLt v) ix.length ix) := by
      intro w hw
      obtain ⟨W', _, h⟩ := (ems_all (opsArg_ok t) v ix.length).1 ix.length [] ix [] [] w [] (Nat.le_refl _) (by simp) (by omega) hix
      simp only [List.nil_append, List.append_nil, List.length_nil, Nat.zero_add] at h
      simp [argsortSerial, argsortFn, h]
    have e1 : argsortSerial (opsArg t) .merge v ix w = some a := h1
    have e2 : argsortSerial (opsArg t) .merge v ix w' = some b := h2
    rw [key w hw] at e1
    rw [key w' hw'] at e2
    exact (Option.some.inj e1).symm.trans (Option.some.inj e2)
  | str u len v =>
    obtain ⟨i1, a1, a2⟩ := argsortStr_ok (computes_str len) (lexKey_swo _) v ix w hw hg hix
    obtain ⟨i2, b1, b2⟩ := argsortStr_ok (computes_str len) (lexKey_swo _) v ix w' hw' hg hix
    have e1 : argsortStr (strLt len) v ix w = some a := h1
    have e2 : argsortStr (strLt len) v ix w' = some b := h2
    rw [a1] at e1; cases e1
    rw [b1] at e2; cases e2
    exact SS.eq (keyLt_swo (lexKey_swo _) v) a2 b2
  | half v =>
    have e1 : some ix = some a := h1
    have e2 : some ix = some b := h2
    cases e1; cases e2; rfl

/-! ### The parallel string argsort of any index array -/

/-- ParMergeMergeString where it does not leave the key array, else nothing. -/
def strMergeTotal (cmp : Nat → Nat → Option Bool) : LeafFn Nat := fun a w pl len pw =>
  some ((parMergeStr cmp a w pl len pw).getD (a, w))

theorem reach_mono {α : Type} {leaf mrg mrg' : LeafFn α} {n : Nat} {src : Option (List α)}
    (h : ∀ a w pl len pw r, mrg a w pl len pw = some r → mrg' a w pl len pw = some r) {s0 s : PS α}
    (hr : Reach leaf mrg n src s0 s) : Reach leaf mrg' n src s0 s := by
  induction hr with
  | start => exact .start
  | step _ hs ih =>
    refine ih.step ?_
    cases hs with
    | claim h1 => exact .claim _ h1
    | scribble k j snap a' w' h1 h2 h3 => exact .scribble _ k j snap a' w' h1 h2 h3
    | commit k j snap a' w' h1 h2 =>
      refine .commit _ k j snap a' w' h1 ?_
      unfold body at h2 ⊢
      split at h2
      · rename_i hk; rw [if_pos hk]; exact h2
      · rename_i hk; rw [if_neg hk]; exact h _ _ _ _ _ _ h2
    | goUp k j hk h1 h2 => exact .goUp _ k j hk h1 h2
    | wait k j hk h1 h2 => exact .wait _ k j hk h1 h2

theorem strMerge_perm {cmp : Nat → Nat → Option Bool} {lt : Nat → Nat → Bool} {n : Nat} (hc : Computes cmp lt (fun i => i < n))
    (A L R B W1 W W2 : List Nat) (hPL : ∀ x ∈ L, x < n) (hPR : ∀ x ∈ R, x < n) {pl len pw : Nat}
    (h1 : pl = A.length) (h2 : len = L.length + R.length) (h3 : pw = W1.length)
    (hhalf : L.length = len / 2) (h5 : 2 ≤ len) (hW : L.length ≤ W.length) :
    ∃ S' W', S'.Perm (L ++ R) ∧ W'.length = W.length ∧
      strMergeTotal cmp (A ++ L ++ R ++ B) (W1 ++ W ++ W2) pl len pw = some (A ++ S' ++ B, W1 ++ W' ++ W2) := by
  obtain ⟨x, R0, hRx⟩ := exists_head R (by omega)
  have hx := hPR x (by rw [hRx]; simp)
  by_cases h0 : x = 0
  · refine ⟨L ++ R, W, List.Perm.refl _, rfl, ?_⟩
    unfold strMergeTotal
    have hgx : (A ++ L ++ R ++ B)[pl + len / 2]? = some x := by
      rw [hRx]
      have e : A ++ L ++ x :: R0 ++ B = (A ++ L) ++ x :: (R0 ++ B) := by simp
      rw [e]; exact get_mid (by simp; omega)
    have : parMergeStr cmp (A ++ L ++ R ++ B) (W1 ++ W ++ W2) pl len pw = none := by
      unfold parMergeStr
      simp only [Option.bind_eq_bind, hgx, Option.bind_some, h0, if_true]
    rw [this]
    simp
  · obtain ⟨W', e1, e2⟩ := parMergeStr_run hc A L R B W1 W W2 hPL hPR hRx h0 (by show x - 1 < n; omega) h1 h2 h3 hhalf hW
    refine ⟨if lt x (x - 1) then mergeL lt L R else L ++ R, W', ?_, e1, ?_⟩
    · split
      · exact mergeL_perm _ L R
      · exact List.Perm.refl _
    · unfold strMergeTotal
      rw [e2]; rfl

theorem strTotal_contract {α : Type} [Inhabited α] {cmp : α → α → Option Bool} {lt : α → α → Bool} {P : α → Prop}
    (hc : Computes cmp lt P) (hs : SWO lt) (v : List α) (hP : ∀ x ∈ v, P x) {n : Nat} :
    Contract (leafArgStr (byIndex cmp v)) (strMergeTotal (byIndex cmp v)) n (fun S' S => S'.Perm S) (fun i => i < v.length) where
  perm h := h
  leaf_ok {j} A S B w hj hA hS hw hP' := by
    have hv : Valid 0 j := ⟨by omega, by simpa using hj⟩
    have hhi := nodeHi_le (n := n) hv
    have hws := ws_enough (n := n) hv
    have hwm := nodeWs_mono n 0 j
    obtain ⟨W1, W, W2, rfl, hW1, hW⟩ := leaf_ws hj w hw
    obtain ⟨S', W', h1, h2, h3⟩ := str_all (computes_byIndex hc v hP) (keyLt_swo hs v) false (nodeHi n 0 j - nodeLo n 0 j)
      A S B W1 W W2 hS (by omega) hP'
    refine ⟨S', W1 ++ W' ++ W2, ?_, h1.perm, within_mid hW1.symm (by omega) h2⟩
    rw [hA, hW1] at h3
    exact h3
  merge_ok A L R B W1 W W2 SL SR pl len pw hL hR hPL hPR h1 h2 h3 h4 h5 h6 := by
    obtain ⟨S', W', e1, e2, e3⟩ := strMerge_perm (computes_byIndex hc v hP) A L R B W1 W W2
      (fun x hx => hPL x (hL.mem_iff.1 hx)) (fun x hx => hPR x (hR.mem_iff.1 hx)) h1 h2 h3 h4 h5 h6
    exact ⟨S', W', e1.trans (hL.append hR), e2, e3⟩

theorem pass_perm {c : Col} (hg : c.Sized) {k : Kind} {ix ix' : List Nat} (hix : ∀ i ∈ ix, i < c.rows) (hn : ix.length < 2 ^ 63)
    (hp : Pass k c ix ix') : ix'.Perm ix := by
  cases hp with
  | serial c ix ix' w hw h =>
    obtain ⟨b, h1, h2⟩ := passSerial_perm hg k ix w hix hn hw
    rw [h] at h1; obtain rfl := Option.some.inj h1
    exact h2
  | threaded t v ix w s hl hw h h8 =>
    exact (reach_inv ((arg_perm_contract (opsArg_ok t) k v hn).node rfl hix) (by omega) rfl
      (fun _ h => by cases h) (inv_init w _ rfl hw (fun _ => rfl)) h).sorted rfl h8
  | threadedStr u len v ix w s hl hw h h8 =>
    refine (reach_inv ((strTotal_contract (computes_str (u := u) len) (lexKey_swo nums) v hg).node rfl hix) (by omega) rfl
      (fun _ h => by cases h) (inv_init w _ rfl hw (fun _ => rfl)) (reach_mono ?_ h)).sorted rfl h8
    intro a w pl len pw r h
    unfold strMergeTotal
    rw [h]; rfl

theorem passes_perm {k : Kind} {cs : List Col} : ∀ {ix ix' : List Nat} {n : Nat}, (∀ c ∈ cs, c.Sized ∧ c.rows = n) → (∀ i ∈ ix, i < n) →
    ix.length < 2 ^ 63 → Passes k cs ix ix' → ix'.Perm ix := by
  induction cs with
  | nil => intro ix ix' n _ _ _ hp; cases hp; exact List.Perm.refl _
  | cons c cs ih =>
    intro ix ix'' n hc hix hn hp
    cases hp with
    | @cons _ _ _ ix' _ h hps =>
      obtain ⟨hg, hrows⟩ := hc c (by simp)
      have p1 := pass_perm hg (by rw [hrows]; exact hix) hn h
      exact (ih (n := n) (fun c' hc' => hc c' (by simp [hc'])) (fun i hi => hix i (p1.mem_iff.1 hi))
        (by rw [p1.length_eq]; exact hn) hps).trans p1

/-- Without threads some run always exists. -/
theorem passes_exist_any {k : Kind} {cs : List Col} : ∀ {ix : List Nat} {n : Nat}, (∀ c ∈ cs, c.Sized ∧ c.rows = n) → (∀ i ∈ ix, i < n) →
    ix.length < 2 ^ 63 → ∃ ix', Passes k cs ix ix' := by
  induction cs with
  | nil => intro ix n _ _ _; exact ⟨ix, .nil ix⟩
  | cons c cs ih =>
    intro ix n hc hix hn
    obtain ⟨hg, hrows⟩ := hc c (by simp)
    obtain ⟨ix', h1, h2⟩ := passSerial_perm hg k ix (List.replicate (ix.length / 2) 0) (by rw [hrows]; exact hix) hn (by simp)
    obtain ⟨ix'', h3⟩ := ih (ix := ix') (n := n) (fun c' hc' => hc c' (by simp [hc'])) (fun i hi => hix i (h2.mem_iff.1 hi))
      (by rw [h2.length_eq]; exact hn)
    exact ⟨ix'', .cons (.serial c ix ix' _ (by simp) h1) h3⟩

/-! ### Partitions -/

section
variable {cut : List Nat} {n : Nat}

/-- What a sort of partition `t` may turn `S` into. -/
def PartRun (c : Col) (cut : List Nat) (t : Nat) (S' S : List Nat) : Prop :=
  ∃ w : List Nat, w.length = S.length / 2 ∧ passSerial .merge (c.slice (partLo cut t) (partHi cut t)) S w = some S'

theorem part_perm {c : Col} (hg : c.Sized) (hrows : c.rows = n) (hn : n < 2 ^ 63) (hcut : ValidCut cut n) {t : Nat} (ht : t < cut.length)
    {S' S : List Nat} (hS : ∀ i ∈ S, i < partHi cut t - partLo cut t) (hl : S.length = partHi cut t - partLo cut t)
    (h : PartRun c cut t S' S) : S'.Perm S := by
  obtain ⟨w, hw, h⟩ := h
  have hhi := hcut.hi_le ht
  obtain ⟨b, h1, h2⟩ := passSerial_perm (slice_sized hg (partLo cut t) (partHi cut t)) .merge S w
    (by rw [slice_rows c (by omega)]; exact hS) (by omega) hw
  rw [h] at h1; obtain rfl := Option.some.inj h1
  exact h2

theorem part_det {c : Col} (hg : c.Sized) (hrows : c.rows = n) (hcut : ValidCut cut n) {t : Nat} (ht : t < cut.length)
    {a b S : List Nat} (hS : ∀ i ∈ S, i < partHi cut t - partLo cut t) (h1 : PartRun c cut t a S) (h2 : PartRun c cut t b S) : a = b := by
  obtain ⟨w, hw, h1⟩ := h1
  obtain ⟨w', hw', h2⟩ := h2
  have hhi := hcut.hi_le ht
  exact passSerial_det (slice_sized hg (partLo cut t) (partHi cut t)) (by rw [slice_rows c (by omega)]; exact hS) hw hw' h1 h2

theorem effect_sized {c : Col} (hg : c.Sized) (hrows : c.rows = n) (hn : n < 2 ^ 63) (hcut : ValidCut cut n) :
    Effect c cut (PartRun c cut) := by
  intro t snap w S' ht hrel hsl hw hrun
  have h : PartRun c cut t S' snap := ⟨w, hw, hrun⟩
  exact ⟨h, (part_perm hg hrows hn hcut ht hrel hsl h).length_eq⟩

theorem cutPass_run {c : Col} (hg : c.Sized) (hrows : c.rows = n) (hn : n < 2 ^ 63) (hcut : ValidCut cut n) {ix ix' : List Nat}
    (h0 : ix.length = n) (hrel : Rel cut ix) (h : CutPass c cut ix ix') :
    ix'.length = n ∧ ∀ t, t < cut.length →
      PartRun c cut t (seg ix' (partLo cut t) (partHi cut t)) (seg ix (partLo cut t) (partHi cut t)) := by
  obtain ⟨s, h1, h2, rfl⟩ := h
  have i := CInv.reach (effect_sized hg hrows hn hcut) hcut h0 hrel h1
  exact ⟨i.len, fun t ht => i.done t ht (h2 t ht)⟩

theorem cutPass_perm {c : Col} (hg : c.Sized) (hrows : c.rows = n) (hn : n < 2 ^ 63) (hcut : ValidCut cut n) {ix ix' : List Nat}
    (h0 : ix.length = n) (hrel : Rel cut ix) (h : CutPass c cut ix ix') :
    ix'.length = n ∧ ∀ t, t < cut.length →
      (seg ix' (partLo cut t) (partHi cut t)).Perm (seg ix (partLo cut t) (partHi cut t)) := by
  obtain ⟨l, p⟩ := cutPass_run hg hrows hn hcut h0 hrel h
  exact ⟨l, fun t ht => part_perm hg hrows hn hcut ht (hrel t ht)
    (seg_length (by rw [h0]; exact hcut.hi_le ht)) (p t ht)⟩

theorem cutPasses_perm {cs : List Col} : ∀ {ix ix' : List Nat}, (∀ c ∈ cs, c.Sized ∧ c.rows = n) → n < 2 ^ 63 → ValidCut cut n →
    ix.length = n → Rel cut ix → CutPasses cut cs ix ix' →
    ix'.length = n ∧ ∀ t, t < cut.length →
      (seg ix' (partLo cut t) (partHi cut t)).Perm (seg ix (partLo cut t) (partHi cut t)) := by
  induction cs with
  | nil => intro ix ix' _ _ _ h0 _ hp; cases hp; exact ⟨h0, fun t _ => List.Perm.refl _⟩
  | cons c cs ih =>
    intro ix ix'' hc hn hcut h0 hrel hp
    cases hp with
    | @cons _ _ _ ix' _ h hps =>
      obtain ⟨hg, hrows⟩ := hc c (by simp)
      obtain ⟨l1, p⟩ := cutPass_perm hg hrows hn hcut h0 hrel h
      obtain ⟨l2, q⟩ := ih (fun c' hc' => hc c' (by simp [hc'])) hn hcut l1
        (fun t ht i hi => hrel t ht i ((p t ht).mem_iff.1 hi)) hps
      exact ⟨l2, fun t ht => (q t ht).trans (p t ht)⟩

theorem cutPasses_det {cs : List Col} : ∀ {ix a b : List Nat}, (∀ c ∈ cs, c.Sized ∧ c.rows = n) → n < 2 ^ 63 → ValidCut cut n →
    ix.length = n → Rel cut ix → CutPasses cut cs ix a → CutPasses cut cs ix b → a = b := by
  induction cs with
  | nil => intro ix a b _ _ _ h0 _ h1 h2; cases h1; cases h2; rfl
  | cons c cs ih =>
    intro ix a b hc hn hcut h0 hrel h1 h2
    cases h1 with
    | @cons _ _ _ a' _ h1 h1s =>
    cases h2 with
    | @cons _ _ _ b' _ h2 h2s =>
      obtain ⟨hg, hrows⟩ := hc c (by simp)
      obtain ⟨l1, p⟩ := cutPass_run hg hrows hn hcut h0 hrel h1
      obtain ⟨l2, q⟩ := cutPass_run hg hrows hn hcut h0 hrel h2
      obtain ⟨_, r⟩ := cutPass_perm hg hrows hn hcut h0 hrel h1
      have e : a' = b' := hcut.ext l1 l2 fun t ht => part_det hg hrows hcut ht (hrel t ht) (p t ht) (q t ht)
      subst e
      exact ih (fun c' hc' => hc c' (by simp [hc'])) hn hcut l1 (fun t ht i hi => hrel t ht i ((r t ht).mem_iff.1 hi)) h1s h2s

theorem cutPass_exists_any {c : Col} (hg : c.Sized) (hrows : c.rows = n) (hn : n < 2 ^ 63) (hcut : ValidCut cut n) {ix : List Nat}
    (h0 : ix.length = n) (hrel : Rel cut ix) : ∃ ix', CutPass c cut ix ix' := by
  suffices h : ∀ m, m ≤ cut.length → ∃ s, CReach c cut { a := ix, st := fun _ => .idle } s ∧
      ∀ t, s.st t = if t < m then .done else .idle by
    obtain ⟨s, h1, h2⟩ := h cut.length (Nat.le_refl _)
    exact ⟨s.a, s, h1, fun t ht => by rw [h2 t, if_pos ht], rfl⟩
  intro m
  induction m with
  | zero => intro _; exact ⟨_, .start, fun t => by simp⟩
  | succ m ih =>
    intro hm
    obtain ⟨s, h1, h2⟩ := ih (by omega)
    have i := CInv.reach (effect_sized hg hrows hn hcut) hcut h0 hrel h1
    have hi : s.st m = .idle := by rw [h2 m, if_neg (by omega)]
    have hsn := i.idle m (by omega) hi
    have hhi := hcut.hi_le (t := m) (by omega)
    obtain ⟨S', e1, e2⟩ := passSerial_perm (slice_sized hg (partLo cut m) (partHi cut m)) .merge (seg s.a (partLo cut m) (partHi cut m))
      (List.replicate ((seg s.a (partLo cut m) (partHi cut m)).length / 2) 0)
      (by rw [slice_rows c (by omega), hsn]; exact hrel m (by omega)) (by rw [seg_length (by rw [i.len]; exact hhi)]; omega) (by simp)
    refine ⟨_, (h1.step (.start s m (by omega) hi)).step (.commit _ m _ S' _ (by simp) (by simp) e1), fun t => ?_⟩
    by_cases e : t = m
    · subst e; simp
    · simp only [Function.update_of_ne e, h2 t]
      by_cases ht : t < m
      · rw [if_pos ht, if_pos (by omega)]
      · rw [if_neg ht, if_neg (by omega)]

theorem cutPasses_exist_any {cs : List Col} : ∀ {ix : List Nat}, (∀ c ∈ cs, c.Sized ∧ c.rows = n) → n < 2 ^ 63 → ValidCut cut n →
    ix.length = n → Rel cut ix → ∃ ix', CutPasses cut cs ix ix' := by
  induction cs with
  | nil => intro ix _ _ _ _ _; exact ⟨ix, .nil ix⟩
  | cons c cs ih =>
    intro ix hc hn hcut h0 hrel
    obtain ⟨hg, hrows⟩ := hc c (by simp)
    obtain ⟨ix', h⟩ := cutPass_exists_any hg hrows hn hcut h0 hrel
    obtain ⟨l1, p⟩ := cutPass_perm hg hrows hn hcut h0 hrel h
    obtain ⟨ix'', h'⟩ := ih (fun c' hc' => hc c' (by simp [hc'])) hn hcut l1
      (fun t ht i hi => hrel t ht i ((p t ht).mem_iff.1 hi))
    exact ⟨ix'', .cons h h'⟩

end

end Pnumpy.Lex
