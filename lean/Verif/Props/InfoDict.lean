import Verif.Model.InfoDict
import Verif.Proofs.WorkerLimit
import Verif.Props.WorkerLimit
/-
C104: what `initialize()` reports.  C105: the dictionary `atop_info()` returns.
-/
namespace Pnumpy.Props
open Pnumpy.Spec Pnumpy.Hooks Pnumpy.InfoDict

/-! A concrete layout: 64 bytes per table position. -/

def egKeys : List Key := allHooks.map Hook.key
def egAddr (k : Key) : Int := 4096 + 64 * (egKeys.idxOf k : Int)

/-- Case for `Layout`: such a layout exists. -/
def egLayout : Layout where
  addr := egAddr
  keyAt p := match egKeys[((p - 4096) / 64).toNat]? with
    | some k => if egAddr k = p then some k else none
    | none => none
  keyAt_addr h hh := by
    have hm : h.key ∈ egKeys := List.mem_map_of_mem hh
    have : ((egAddr h.key - 4096) / 64).toNat = egKeys.idxOf h.key := by unfold egAddr; omega
    simp only [this]
    rw [List.getElem?_eq_getElem (List.idxOf_lt_length_of_mem hm), List.getElem_idxOf]
    simp
  addr_keyAt p k h := by
    split at h
    · split at h
      · rename_i e; injection h with h; rw [← h]; exact e
      · cases h
    · cases h
  user h hh := by
    have hm : h.key ∈ egKeys := List.mem_map_of_mem hh
    have h1 := List.idxOf_lt_length_of_mem hm
    have h2 : egKeys.length = allHooks.length := List.length_map ..
    have h3 : allHooks.length < 1000 := by decide +kernel
    unfold egAddr
    omega

/-! ### C104 -/

theorem id_fold_hooks (M : Layout) (L : List Hook) (s : InfoDict.St) : (L.foldl (InfoDict.hookOne M) s).hooks = L.foldl Hooks.hookOne s.hooks := by
  induction L generalizing s with
  | nil => rfl
  | cons h t ih => rw [List.foldl_cons, ih, List.foldl_cons]; rfl

theorem id_initialized (M : Layout) (c : Cfg) (hist : List PCall) :
    (InfoDict.run M c hist).hooks.initialized = decide (PCall.doInit ∈ hist ∧ c.avx2 = true) := by
  induction hist with
  | nil => simp [InfoDict.run, InfoDict.init, Hooks.init]
  | cons x t ih =>
    cases x <;> simp only [InfoDict.run, InfoDict.step] <;> try (simpa using ih)
    · by_cases ha : c.avx2 = true
      · by_cases hi : (InfoDict.run M c t).hooks.initialized = false
        · rw [if_pos ⟨hi, ha⟩]
          simp only
          rw [id_fold_hooks, (fold_keeps _ _).2.2.1]
          simp [ha]
        · rw [if_neg (fun h => hi h.1)]
          have : (InfoDict.run M c t).hooks.initialized = true := by simpa using hi
          simp [this, ha]
      · rw [if_neg (fun h => ha h.2)]
        simp only
        rw [ih]
        simp [ha]
    · split
      · split
        · simpa using ih
        · split
          · split <;> simpa using ih
          · simpa using ih
      · simpa using ih

/-- The dictionary after a run of replacements. -/
theorem id_fold_dict (M : Layout) (n : String) (d : Int) : ∀ (L : List Hook) (s : InfoDict.St) (f : String → Int → Option DVal), s.dict = some f →
    ∃ g, (L.foldl (InfoDict.hookOne M) s).dict = some g ∧
      ((g n d = f n d ∧ ¬ ∃ h ∈ L, WorkerLimit.nameOf h.1.op = some n ∧ (h.2 : Int) = d) ∨
        ∃ h ∈ L, (WorkerLimit.nameOf h.1.op = some n ∧ (h.2 : Int) = d) ∧ g n d = some (.int (M.addr h.key)))
  | [], s, f, hs => ⟨f, hs, Or.inl ⟨rfl, by simp⟩⟩
  | h :: L, s, f, hs => by
    rw [List.foldl_cons]
    have key : ∃ f', (InfoDict.hookOne M s h).dict = some f' ∧
        ((WorkerLimit.nameOf h.1.op = some n ∧ (h.2 : Int) = d ∧ f' n d = some (.int (M.addr h.key))) ∨
          (¬ (WorkerLimit.nameOf h.1.op = some n ∧ (h.2 : Int) = d) ∧ f' n d = f n d)) := by
      unfold InfoDict.hookOne
      simp only
      rw [hs]
      cases hn : WorkerLimit.nameOf h.1.op with
      | none => exact ⟨f, rfl, Or.inr ⟨by simp, rfl⟩⟩
      | some m =>
        refine ⟨_, rfl, ?_⟩
        by_cases he : m = n ∧ (h.2 : Int) = d
        · left
          exact ⟨by rw [he.1], he.2, by simp [setItem, he.1, he.2]⟩
        · right
          refine ⟨by simpa using he, ?_⟩
          unfold setItem
          rw [if_neg]
          rintro ⟨h1, h2⟩
          exact he ⟨h1.symm, h2.symm⟩
    obtain ⟨f', hf', hcase⟩ := key
    obtain ⟨g, hg, h1⟩ := id_fold_dict M n d L _ f' hf'
    refine ⟨g, hg, ?_⟩
    rcases h1 with ⟨h1, h2⟩ | ⟨h', hm, h3, h4⟩
    · rcases hcase with ⟨a, b, e⟩ | ⟨a, e⟩
      · exact Or.inr ⟨h, by simp, ⟨a, b⟩, h1.trans e⟩
      · refine Or.inl ⟨h1.trans e, ?_⟩
        rintro ⟨x, hx, hp⟩
        rcases List.mem_cons.1 hx with rfl | hx
        · exact a hp
        · exact h2 ⟨x, hx, hp⟩
    · exact Or.inr ⟨h', by simp [hm], h3, h4⟩

/-- The hooks `initialize()` is to install: all that the getters select. -/
def wanted (c : Cfg) : List Hook := allHooks.filter c.sel

theorem hooks_of_ok {c : Cfg} (h : fails c = false) : c.hooks = wanted c := by
  unfold Cfg.hooks
  unfold fails at h
  cases hs : c.stop with
  | none => rfl
  | some n =>
    rw [hs] at h
    simp only [decide_eq_false_iff_not, Nat.not_lt] at h
    exact List.take_of_length_le h

/-- **C104**, first call: `initialize()` returns None only if the machine has AVX2 and every replacement was made; afterwards every function and type it was to
take over is listed by `atop_info`. -/
theorem C104_first_call_partial (M : Layout) (c : Cfg) (hist : List PCall) (hfirst : PCall.doInit ∉ hist)
    (hret : (InfoDict.step M c (InfoDict.run M c hist) .doInit).2 = .none) (h : Hook) (hh : h ∈ wanted c) (n : String)
    (hn : WorkerLimit.nameOf h.1.op = some n) :
    c.avx2 = true ∧ ∃ m, (InfoDict.step M c (InfoDict.run M c (.doInit :: hist)) (.info n h.2)).2 = .info m := by
  have hi : (InfoDict.run M c hist).hooks.initialized = false := by rw [id_initialized]; simp [hfirst]
  by_cases ha : c.avx2 = true
  · refine ⟨ha, ?_⟩
    simp only [InfoDict.step, if_pos (show (InfoDict.run M c hist).hooks.initialized = false ∧ c.avx2 = true from ⟨hi, ha⟩)] at hret
    have hf : fails c = false := by
      cases hf : fails c with
      | false => rfl
      | true => rw [hf] at hret; cases hret
    have hrun : InfoDict.run M c (.doInit :: hist) = c.hooks.foldl (InfoDict.hookOne M) { InfoDict.run M c hist with hooks := { (InfoDict.run M c hist).hooks with initialized := true, old := fun _ => none }, dict := some fun _ _ => none } := by
      simp only [InfoDict.run, InfoDict.step, if_pos (show (InfoDict.run M c hist).hooks.initialized = false ∧ c.avx2 = true from ⟨hi, ha⟩)]
    rw [hrun]
    simp only [InfoDict.step]
    obtain ⟨g, hg, h1⟩ := id_fold_dict M n h.2 c.hooks
      { InfoDict.run M c hist with hooks := { (InfoDict.run M c hist).hooks with initialized := true, old := fun _ => none }, dict := some fun _ _ => none } _ rfl
    rw [hooks_of_ok hf] at h1
    rcases h1 with ⟨_, h2⟩ | ⟨h', hm', _, h3⟩
    · exact absurd ⟨h, hh, hn, rfl⟩ h2
    · have hp : getFromDict (c.hooks.foldl (InfoDict.hookOne M) { InfoDict.run M c hist with hooks := { (InfoDict.run M c hist).hooks with initialized := true, old := fun _ => none }, dict := some fun _ _ => none }) n h.2 = M.addr h'.key := by
        unfold getFromDict
        rw [hg]
        simp only
        rw [h3]
        simp only
        have := M.user h' (List.mem_filter.1 hm').1
        rw [if_pos ⟨by omega, this.2⟩]
      rw [hp]
      have := M.user h' (List.mem_filter.1 hm').1
      rw [if_neg (by omega), M.keyAt_addr h' (List.mem_filter.1 hm').1]
      exact ⟨_, rfl⟩
  · simp only [InfoDict.step] at hret
    rw [if_neg (fun h => ha h.2)] at hret
    simp only [if_neg ha] at hret
    cases hret

/-- Case: `initialize()` after `atop_enable()`; `atop_info("add", 5)` then finds the loop. -/
example : ∃ m, (InfoDict.step egLayout allCfg (InfoDict.run egLayout allCfg [.doInit, .atopEnable]) (.info "add" 5)).2 = .info m :=
  (C104_first_call_partial egLayout allCfg [.atopEnable] (by simp) rfl (⟨.binary, .add, .ADD⟩, 5) (by decide +kernel) "add" (by decide +kernel)).2

/-- **C104 violated** for later calls: if the first `initialize()` failed at some function and type, it raised, and every later `initialize()` returns None
although that function is not taken over and `atop_info` says False for it, whatever happens in between (short of changing the dictionary). -/
theorem C104_second_call_violated (M : Layout) (c : Cfg) (ha : c.avx2 = true) (k : Nat) (hk : c.stop = some k) (h : Hook) (hh : (wanted c)[k]? = some h)
    (n : String) (_hn : WorkerLimit.nameOf h.1.op = some n) (hnew : ∀ x ∈ (wanted c).take k, ¬ (WorkerLimit.nameOf x.1.op = some n ∧ x.2 = h.2))
    (before after : List PCall) (hb : PCall.doInit ∉ before) (hput : ∀ n d v, PCall.put n d v ∉ after) :
    (InfoDict.step M c (InfoDict.run M c before) .doInit).2 = .raises ∧
    (InfoDict.step M c (InfoDict.run M c (after ++ .doInit :: before)) .doInit).2 = .none ∧
    (InfoDict.step M c (InfoDict.run M c (after ++ .doInit :: before)) (.info n h.2)).2 = .bool false := by
  have hlt : k < (wanted c).length := by
    rw [List.getElem?_eq_some_iff] at hh
    exact hh.1
  have hf : fails c = true := by unfold fails; rw [hk]; simpa [wanted] using hlt
  have hi : (InfoDict.run M c before).hooks.initialized = false := by rw [id_initialized]; simp [hb]
  refine ⟨?_, ?_, ?_⟩
  · simp only [InfoDict.step, if_pos (show (InfoDict.run M c before).hooks.initialized = false ∧ c.avx2 = true from ⟨hi, ha⟩), hf]
    rfl
  · have : (InfoDict.run M c (after ++ .doInit :: before)).hooks.initialized = true := by rw [id_initialized]; simp [ha]
    simp only [InfoDict.step]
    rw [if_neg (by rw [this]; simp)]
    simp [ha]
  · suffices hd : ∃ g, (InfoDict.run M c (after ++ .doInit :: before)).dict = some g ∧ g n h.2 = none by
      obtain ⟨g, hg, h0⟩ := hd
      have : getFromDict (InfoDict.run M c (after ++ .doInit :: before)) n h.2 = 0 := by
        unfold getFromDict; rw [hg]; simp only; rw [h0]
      simp only [InfoDict.step, this, if_true]
    induction after with
    | nil =>
      simp only [List.nil_append, InfoDict.run, InfoDict.step]
      rw [if_pos ⟨hi, ha⟩]
      simp only
      obtain ⟨g, hg, h1⟩ := id_fold_dict M n h.2 c.hooks
        { InfoDict.run M c before with hooks := { (InfoDict.run M c before).hooks with initialized := true, old := fun _ => none }, dict := some fun _ _ => none } _ rfl
      refine ⟨g, hg, ?_⟩
      rcases h1 with ⟨h1, _⟩ | ⟨x, hx, ⟨hxn, hxd⟩, _⟩
      · exact h1
      · have hx' : x ∈ (wanted c).take k := by
          unfold Cfg.hooks at hx
          rw [hk] at hx
          exact hx
        exact absurd ⟨hxn, by exact_mod_cast hxd⟩ (hnew x hx')
    | cons x t ih =>
      obtain ⟨g, hg, h0⟩ := ih (fun n d v hm => hput n d v (List.mem_cons_of_mem _ hm))
      have hin : (InfoDict.run M c (t ++ .doInit :: before)).hooks.initialized = true := by rw [id_initialized]; simp [ha]
      rw [List.cons_append]
      cases x with
      | doInit =>
        simp only [InfoDict.run, InfoDict.step]
        rw [if_neg (by rw [hin]; simp)]
        exact ⟨g, hg, h0⟩
      | put n' d' v => exact absurd (List.mem_cons_self ..) (hput n' d' v)
      | del n' d' =>
        simp only [InfoDict.run, InfoDict.step]
        rw [hg]
        refine ⟨_, rfl, ?_⟩
        simp only [setItem]
        split
        · rfl
        · exact h0
      | setWorkers n' d' j =>
        simp only [InfoDict.run, InfoDict.step]
        split
        · split
          · exact ⟨g, hg, h0⟩
          · split
            · split
              · exact ⟨g, hg, h0⟩
              · exact ⟨g, hg, h0⟩
            · exact ⟨g, hg, h0⟩
        · exact ⟨g, hg, h0⟩
      | _ => exact ⟨g, hg, h0⟩

/-- Case: failing at the first function and type (`add`, bool): the second `initialize()` returns None, yet `add` is not taken over. -/
example : (InfoDict.step egLayout { allCfg with stop := some 0 } (InfoDict.run egLayout { allCfg with stop := some 0 } [.infoAll, .doInit]) .doInit).2 = .none ∧
    (InfoDict.step egLayout { allCfg with stop := some 0 } (InfoDict.run egLayout { allCfg with stop := some 0 } [.infoAll, .doInit]) (.info "add" 0)).2 = .bool false :=
  (C104_second_call_violated egLayout { allCfg with stop := some 0 } rfl 0 rfl (⟨.binary, .add, .ADD⟩, 0) (by decide +kernel) "add" (by decide +kernel)
    (by simp) [] [.infoAll] (by simp) (by simp)).2

/-! ### C105 -/

/-- The dictionary holds only addresses of table positions. -/
def Clean (M : Layout) (s : InfoDict.St) : Prop := ∀ f, s.dict = some f → ∀ n d v, f n d = some v → ∃ h ∈ allHooks, v = .int (M.addr h.key)

theorem clean_hookOne {M : Layout} {s : InfoDict.St} {h : Hook} (hh : h ∈ allHooks) (hs : Clean M s) : Clean M (InfoDict.hookOne M s h) := by
  intro f hf n d v hv
  unfold InfoDict.hookOne at hf
  simp only at hf
  split at hf
  · rename_i m g hm hg
    injection hf with hf
    subst hf
    unfold setItem at hv
    split at hv
    · injection hv with hv; exact ⟨h, hh, hv.symm⟩
    · exact hs g hg n d v hv
  · exact hs f hf n d v hv

theorem clean_fold {M : Layout} (L : List Hook) (hL : ∀ h ∈ L, h ∈ allHooks) {s : InfoDict.St} (hs : Clean M s) : Clean M (L.foldl (InfoDict.hookOne M) s) := by
  induction L generalizing s with
  | nil => exact hs
  | cons h t ih => exact ih (fun x hx => hL x (List.mem_cons_of_mem _ hx)) (clean_hookOne (hL h (List.mem_cons_self ..)) hs)

theorem clean_run (M : Layout) (c : Cfg) (hist : List PCall) (hput : ∀ n d v, PCall.put n d v ∉ hist) : Clean M (InfoDict.run M c hist) := by
  induction hist with
  | nil => intro f hf; cases hf
  | cons x t ih =>
    have ih := ih fun n d v hm => hput n d v (List.mem_cons_of_mem _ hm)
    cases x with
    | doInit =>
      simp only [InfoDict.run, InfoDict.step]
      split
      · refine clean_fold _ (fun h hh => (hooks_sublist c).subset hh) ?_
        intro f hf n d v hv
        injection hf with hf
        subst hf
        cases hv
      · exact ih
    | put n d v => exact absurd (List.mem_cons_self ..) (hput n d v)
    | del n d =>
      intro f hf n' d' v hv
      simp only [InfoDict.run, InfoDict.step] at hf
      cases hd : (InfoDict.run M c t).dict with
      | none => rw [hd] at hf; cases hf
      | some g =>
        rw [hd] at hf
        injection hf with hf
        subst hf
        simp only [setItem] at hv
        split at hv
        · cases hv
        · exact ih g hd _ _ _ hv
    | setWorkers n d k =>
      simp only [InfoDict.run, InfoDict.step]
      split
      · split
        · exact ih
        · split
          · split
            · exact ih
            · exact ih
          · exact ih
      · exact ih
    | _ => exact ih

/-- **C105**: as long as no Python code stores into the dictionary that `atop_info()` returns (deleting is harmless), no call of `atop_info` or `atop_setworkers`
accesses memory outside pnumpy's tables, for every history, name, number and value. -/
theorem C105_unchanged_partial (M : Layout) (c : Cfg) (hist : List PCall) (hput : ∀ n d v, PCall.put n d v ∉ hist) (x : PCall) :
    (InfoDict.step M c (InfoDict.run M c hist) x).2 ≠ .wild := by
  have hc := clean_run M c hist hput
  have hp : ∀ n d, getFromDict (InfoDict.run M c hist) n d ≠ 0 → ∃ k, M.keyAt (getFromDict (InfoDict.run M c hist) n d) = some k := by
    intro n d hne
    unfold getFromDict at hne ⊢
    cases hd : (InfoDict.run M c hist).dict with
    | none => rw [hd] at hne; exact absurd rfl hne
    | some f =>
      rw [hd] at hne
      simp only at hne ⊢
      cases hv : f n d with
      | none => rw [hv] at hne; exact absurd rfl hne
      | some v =>
        obtain ⟨h, hh, rfl⟩ := hc f hd n d v hv
        have := M.user h hh
        simp only
        rw [if_pos ⟨by omega, this.2⟩]
        exact ⟨h.key, M.keyAt_addr h hh⟩
  cases x with
  | doInit => simp only [InfoDict.step]; split <;> simp only <;> split <;> simp
  | infoAll => simp only [InfoDict.step]; split <;> simp
  | info n d =>
    simp only [InfoDict.step]
    split
    · simp
    · rename_i h
      obtain ⟨k, hk⟩ := hp n d h
      rw [hk]; simp
  | setWorkers n d k =>
    simp only [InfoDict.step]
    split
    · split
      · simp
      · rename_i h
        obtain ⟨q, hq⟩ := hp n d h
        rw [hq]
        split <;> simp
    · simp
  | _ => simp [InfoDict.step]

/-- Case: reading and setting the limit of `add` for int32 after initialisation, with a deletion before. -/
example : (InfoDict.step egLayout allCfg (InfoDict.run egLayout allCfg [.del "sin" 12, .doInit]) (.setWorkers "add" 5 7)).2 ≠ .wild :=
  C105_unchanged_partial egLayout allCfg _ (by simp) _

/-- **C105**, what `atop_setworkers` changes, for every state reached by whatever history: a call that answers with an old limit changes the limit of that one
function and type: `atop_info` showed the old limit and now shows the new one, and every name and number whose dictionary item is a different address gets
the same answer as before; a call that answers False changes no answer. -/
theorem C105_setworkers_partial (M : Layout) (c : Cfg) (hist : List PCall) (n : String) (d k : Int) :
    (∀ old, (InfoDict.step M c (InfoDict.run M c hist) (.setWorkers n d k)).2 = .int old →
      (InfoDict.step M c (InfoDict.run M c hist) (.info n d)).2 = .info old ∧
      (InfoDict.step M c (InfoDict.run M c (.setWorkers n d k :: hist)) (.info n d)).2 = .info k ∧ 0 ≤ k ∧ k < 64 ∧
      ∀ n' d', getFromDict (InfoDict.run M c hist) n' d' ≠ getFromDict (InfoDict.run M c hist) n d →
        (InfoDict.step M c (InfoDict.run M c (.setWorkers n d k :: hist)) (.info n' d')).2 = (InfoDict.step M c (InfoDict.run M c hist) (.info n' d')).2) ∧
    ((InfoDict.step M c (InfoDict.run M c hist) (.setWorkers n d k)).2 = .bool false →
      InfoDict.run M c (.setWorkers n d k :: hist) = InfoDict.run M c hist) := by
  rw [show InfoDict.run M c (.setWorkers n d k :: hist) = (InfoDict.step M c (InfoDict.run M c hist) (.setWorkers n d k)).1 from rfl]
  generalize InfoDict.run M c hist = s
  by_cases ha : s.hooks.atop = true
  · by_cases hp : getFromDict s n d = 0
    · simp [InfoDict.step, ha, hp]
    · by_cases hk : 0 ≤ k ∧ k < 64
      · cases hq : M.keyAt (getFromDict s n d) with
        | none => simp [InfoDict.step, ha, hp, hk, hq]
        | some q =>
          have hgd : ∀ (m : Key → Int) n' d', getFromDict { s with max := m } n' d' = getFromDict s n' d' := fun _ _ _ => rfl
          refine ⟨?_, ?_⟩
          · intro old ho
            simp only [InfoDict.step, if_pos ha, if_neg hp, if_pos hk, hq] at ho ⊢
            injection ho with ho
            simp only [hgd, if_neg hp, hq, ho, if_true, hk, true_and]
            intro n' d' hne
            by_cases h0 : getFromDict s n' d' = 0
            · simp [h0]
            · simp only [if_neg h0]
              cases hq' : M.keyAt (getFromDict s n' d') with
              | none => rfl
              | some q' =>
                have : q' ≠ q := by
                  rintro rfl
                  exact hne ((M.addr_keyAt _ _ hq').symm.trans (M.addr_keyAt _ _ hq))
                simp only [if_neg this]
          · simp only [InfoDict.step, if_pos ha, if_neg hp, if_pos hk, hq]
            intro h; cases h
      · simp only [InfoDict.step, if_pos ha, if_neg hp, if_neg hk]
        exact ⟨(by intro old h; cases h), fun _ => trivial⟩
  · simp [InfoDict.step, ha]

/-- Case: `atop_setworkers("add", 5, 7)` after `atop_enable(); initialize()`: `add` for int32 shows 7, `add` for float32 what it showed. -/
example : (InfoDict.step egLayout allCfg (InfoDict.run egLayout allCfg [.setWorkers "add" 5 7, .doInit, .atopEnable]) (.info "add" 5)).2 = .info 7 ∧
    (InfoDict.step egLayout allCfg (InfoDict.run egLayout allCfg [.setWorkers "add" 5 7, .doInit, .atopEnable]) (.info "add" 11)).2 =
      (InfoDict.step egLayout allCfg (InfoDict.run egLayout allCfg [.doInit, .atopEnable]) (.info "add" 11)).2 := by
  have h := (C105_setworkers_partial egLayout allCfg [.doInit, .atopEnable] "add" 5 7).1 3 (by decide +kernel)
  exact ⟨h.2.1, h.2.2.2.2 "add" 11 (by decide +kernel)⟩

/-- **C105 violated**: once initialised, storing any integer that is not the address of a table position (0 apart) under any name and number makes the next
`atop_info(name, number)` read, and `atop_setworkers(name, number, k)` write, at that address; so does storing an object that is no integer (address -1). -/
theorem C105_store_violated (M : Layout) (c : Cfg) (ha : c.avx2 = true) (hist : List PCall) (hi : PCall.doInit ∈ hist) (n : String) (d : Int) (v : DVal)
    (hv : ∀ w, v = .int w → w ≠ 0 ∧ M.keyAt w = none) (hm : M.keyAt (-1) = none) :
    (InfoDict.step M c (InfoDict.run M c (.put n d v :: hist)) (.info n d)).2 = .wild ∧
    ((InfoDict.run M c hist).hooks.atop = true → ∀ k, 0 ≤ k → k < 64 →
      (InfoDict.step M c (InfoDict.run M c (.put n d v :: hist)) (.setWorkers n d k)).2 = .wild) := by
  have hdict : ∃ f, (InfoDict.run M c hist).dict = some f := by
    clear hv hm
    induction hist with
    | nil => cases hi
    | cons x t ih =>
      have hin := id_initialized M c t
      by_cases ht : PCall.doInit ∈ t
      · obtain ⟨f, hf⟩ := ih ht
        cases x with
        | doInit =>
          simp only [InfoDict.run, InfoDict.step]
          rw [if_neg (by rw [hin]; simp [ht, ha])]
          exact ⟨f, hf⟩
        | setWorkers n d k =>
          simp only [InfoDict.run, InfoDict.step]
          split
          · split
            · exact ⟨f, hf⟩
            · split
              · split
                · exact ⟨f, hf⟩
                · exact ⟨f, hf⟩
              · exact ⟨f, hf⟩
          · exact ⟨f, hf⟩
        | put n d v => exact ⟨setItem f n d (some v), by simp only [InfoDict.run, InfoDict.step, hf, Option.map_some]⟩
        | del n d => exact ⟨setItem f n d none, by simp only [InfoDict.run, InfoDict.step, hf, Option.map_some]⟩
        | _ => exact ⟨f, hf⟩
      · rcases List.mem_cons.1 hi with rfl | h
        · simp only [InfoDict.run, InfoDict.step]
          rw [if_pos ⟨by rw [hin]; simp [ht], ha⟩]
          obtain ⟨g, hg, _⟩ := id_fold_dict M "" 0 c.hooks
            { InfoDict.run M c t with hooks := { (InfoDict.run M c t).hooks with initialized := true, old := fun _ => none }, dict := some fun _ _ => none } _ rfl
          exact ⟨g, hg⟩
        · exact absurd h ht
  obtain ⟨f, hf⟩ := hdict
  have hp : ∃ p, getFromDict (InfoDict.run M c (.put n d v :: hist)) n d = p ∧ p ≠ 0 ∧ M.keyAt p = none := by
    simp only [InfoDict.run, InfoDict.step, getFromDict, hf, Option.map_some, setItem, and_self, if_true]
    cases v with
    | other => exact ⟨-1, rfl, by decide, hm⟩
    | int w =>
      obtain ⟨h1, h2⟩ := hv w rfl
      simp only
      split
      · exact ⟨w, rfl, h1, h2⟩
      · exact ⟨-1, rfl, by decide, hm⟩
  obtain ⟨p, hp1, hp2, hp3⟩ := hp
  refine ⟨?_, ?_⟩
  · simp only [InfoDict.step, hp1, if_neg hp2, hp3]
  · intro hat k h0 h1
    have : (InfoDict.run M c (.put n d v :: hist)).hooks.atop = true := hat
    simp only [InfoDict.step]
    rw [if_pos this]
    simp only [hp1, if_neg hp2, hp3, if_pos (show 0 ≤ k ∧ k < 64 from ⟨h0, h1⟩)]

/-- Case: `d = atop_info(); d[("add", 5)] = 1`. -/
example : (InfoDict.step egLayout allCfg (InfoDict.run egLayout allCfg [.put "add" 5 (.int 1), .doInit]) (.setWorkers "add" 5 7)).2 = .wild :=
  (C105_store_violated egLayout allCfg rfl [.doInit] (by simp) "add" 5 (.int 1) (by rintro w h; injection h with h; subst h; exact ⟨by decide, by decide +kernel⟩)
    (by decide +kernel)).2 (by decide +kernel) 7 (by decide) (by decide)

/-- **C105 violated** also without any store: before an `initialize()` that got as far as creating the dictionary, `atop_info()` fails with SystemError. -/
theorem C105_before_init_violated (M : Layout) (c : Cfg) (hist : List PCall) (hi : PCall.doInit ∉ hist) :
    (InfoDict.step M c (InfoDict.run M c hist) .infoAll).2 = .systemError := by
  have : (InfoDict.run M c hist).dict = none := by
    induction hist with
    | nil => rfl
    | cons x t ih =>
      have ih := ih fun h => hi (List.mem_cons_of_mem _ h)
      cases x with
      | doInit => exact absurd (List.mem_cons_self ..) hi
      | setWorkers n d k =>
        simp only [InfoDict.run, InfoDict.step]
        split
        · split
          · exact ih
          · split
            · split
              · exact ih
              · exact ih
            · exact ih
        · exact ih
      | put n d v => simp only [InfoDict.run, InfoDict.step, ih, Option.map_none]
      | del n d => simp only [InfoDict.run, InfoDict.step, ih, Option.map_none]
      | _ => exact ih
  simp only [InfoDict.step, this]

/-- Case: `atop_info()` as the first call. -/
example : (InfoDict.step egLayout allCfg (InfoDict.run egLayout allCfg []) .infoAll).2 = .systemError := C105_before_init_violated _ _ _ (by simp)

end Pnumpy.Props
