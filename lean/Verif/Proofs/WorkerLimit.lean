import Verif.Spec.WorkerLimit
import Verif.Proofs.Hooks
import Mathlib.Tactic.ByContra
import Batteries.Tactic.Init
/- Lemmas for C99. -/
namespace Pnumpy.WorkerLimit
open Pnumpy.Hooks
open Pnumpy.Spec (Call Ret sameType npFunc lEnabled Replaced lastLimit dfltLimit)

/-- The last replacement satisfying `p`. -/
def lastOf (p : Hook → Bool) (L : List Hook) : Option Hook := L.reverse.find? p

theorem lastOf_append (p : Hook → Bool) (L : List Hook) (h : Hook) : lastOf p (L ++ [h]) = if p h = true then some h else lastOf p L := by
  unfold lastOf
  rw [List.reverse_append]
  simp only [List.reverse_cons, List.reverse_nil, List.nil_append, List.cons_append, List.find?_cons]
  cases p h <;> simp

theorem lastOf_some {p : Hook → Bool} {L : List Hook} {h : Hook} (hh : lastOf p L = some h) : h ∈ L ∧ p h = true := by
  unfold lastOf at hh
  exact ⟨by simpa using List.mem_of_find?_eq_some hh, by simpa using List.find?_some hh⟩

theorem lastOf_exists {p : Hook → Bool} {L : List Hook} {x : Hook} (hx : x ∈ L) (hp : p x = true) : ∃ h, lastOf p L = some h := by
  unfold lastOf
  cases hh : L.reverse.find? p with
  | some h => exact ⟨h, rfl⟩
  | none =>
    rw [List.find?_eq_none] at hh
    exact absurd hp (hh x (by simpa using hx))

/-- The last of several replacements of one loop has the highest rank. -/
theorem lastOf_rank {p : Hook → Bool} {L : List Hook} {h x : Hook} (hb : L.Pairwise Before) (hh : lastOf p L = some h) (hx : x ∈ L) (hp : p x = true)
    (hsame : x.1.obj = h.1.obj ∧ x.2 = h.2) : x = h ∨ rank x.key < rank h.key := by
  unfold lastOf at hh
  obtain ⟨_, as, bs, he, has⟩ := List.find?_eq_some_iff_append.1 hh
  have hL : L = bs.reverse ++ h :: as.reverse := by
    have := congrArg List.reverse he
    simpa using this
  rw [hL] at hb hx
  rcases List.mem_append.1 hx with hx | hx
  · exact Or.inr ((List.pairwise_append.1 hb).2.2 x hx h (by simp) hsame.1 hsame.2)
  · rcases List.mem_cons.1 hx with hx | hx
    · exact Or.inl hx
    · have := has x (by simpa using hx)
      rw [hp] at this; cases this

def named (n : String) (d : Nat) (h : Hook) : Bool := decide (nameOf h.1.op = some n ∧ h.2 = d)
def onLoop (o : Obj) (d : Nat) (h : Hook) : Bool := decide (h.1.obj = o ∧ h.2 = d)

theorem fold_hooks (M : List Hook) (s : St) : (M.foldl hookOne s).hooks = M.foldl Hooks.hookOne s.hooks := by
  induction M generalizing s with
  | nil => rfl
  | cons h t ih => rw [List.foldl_cons, ih, List.foldl_cons]; rfl

theorem fold_dict_aux (M : List Hook) (L : List Hook) (s : St) (n : String) (d : Nat)
    (hs : s.dict n d = (lastOf (named n d) L).map Hook.key) : (M.foldl hookOne s).dict n d = (lastOf (named n d) (L ++ M)).map Hook.key := by
  induction M generalizing L s with
  | nil => simpa using hs
  | cons h t ih =>
    have e : L ++ h :: t = (L ++ [h]) ++ t := by simp
    rw [List.foldl_cons, e]
    apply ih
    rw [lastOf_append]
    simp only [hookOne, named, decide_eq_true_eq]
    cases hn : nameOf h.1.op with
    | none => simp [hs]
    | some n' =>
      simp only [addToDict, Option.some.injEq]
      by_cases hc : n' = n ∧ h.2 = d
      · rw [if_pos ⟨hc.1.symm, hc.2.symm⟩, if_pos hc]; rfl
      · rw [if_neg (fun x => hc ⟨x.1.symm, x.2.symm⟩), if_neg hc]; exact hs

theorem fold_max (M : List Hook) (s : St) (k : Key) :
    (M.foldl hookOne s).max k = if k ∈ M.map Hook.key then startLimit k.tbl else s.max k := by
  induction M generalizing s with
  | nil => simp
  | cons h t ih =>
    rw [List.foldl_cons, ih]
    by_cases h1 : k ∈ t.map Hook.key
    · rw [if_pos h1, if_pos (by simp only [List.map_cons, List.mem_cons]; exact Or.inr h1)]
    · rw [if_neg h1]
      by_cases h2 : k = h.key
      · subst h2
        rw [if_pos (by simp)]
        simp only [hookOne, if_true]
        rfl
      · rw [if_neg (by simp only [List.map_cons, List.mem_cons]; rintro (h | h); exacts [h2 h, h1 h])]
        simp only [hookOne, if_neg h2]

/-- The calls of a history that concern the hooks. -/
def hookCalls (h : List LCall) : List Call := h.map fun | .call c => c | .setWorkers _ _ _ => .other

theorem run_hooks (c : Cfg) (h : List LCall) : (run c h).hooks = Hooks.run c (hookCalls h) := by
  induction h with
  | nil => rfl
  | cons x t ih =>
    cases x with
    | setWorkers n d k =>
      show ((step c (run c t) (.setWorkers n d k)).1).hooks = Hooks.step c (Hooks.run c (hookCalls t)) .other
      simp only [step, Hooks.step]
      split
      · split
        · split <;> exact ih
        · exact ih
      · exact ih
    | call x =>
      show ((step c (run c t) (.call x)).1).hooks = Hooks.step c (Hooks.run c (hookCalls t)) x
      cases x
      case doInit =>
        simp only [step, Hooks.step]
        rw [← ih]
        split
        · rw [fold_hooks]
        · rfl
      all_goals simp only [step, ih]

def inited (c : Cfg) (h : List LCall) : Prop := LCall.call .doInit ∈ h ∧ c.avx2 = true

instance (c : Cfg) (h : List LCall) : Decidable (inited c h) := by unfold inited; infer_instance

theorem mem_hookCalls (h : List LCall) : Call.doInit ∈ hookCalls h ↔ LCall.call .doInit ∈ h := by
  unfold hookCalls
  simp only [List.mem_map]
  constructor
  · rintro ⟨x, hx, he⟩
    cases x with
    | call y => simp only at he; subst he; exact hx
    | setWorkers => cases he
  · intro hx; exact ⟨_, hx, rfl⟩

theorem run_initialized (c : Cfg) (h : List LCall) : (run c h).hooks.initialized = decide (inited c h) := by
  rw [run_hooks, (run_inv c _).2]
  unfold inited
  simp only [mem_hookCalls]

theorem run_atop (c : Cfg) (h : List LCall) : (run c h).hooks.atop = lEnabled h := by
  induction h with
  | nil => rfl
  | cons x t ih =>
    cases x with
    | setWorkers n d k =>
      show ((step c (run c t) (.setWorkers n d k)).1).hooks.atop = lEnabled t
      simp only [step]
      split
      · split
        · split <;> exact ih
        · exact ih
      · exact ih
    | call x =>
      show ((step c (run c t) (.call x)).1).hooks.atop = _
      cases x
      case doInit =>
        simp only [step]
        split
        · rw [fold_hooks, (fold_keeps _ _).1]; exact ih
        · exact ih
      case atopEnable => rfl
      case atopDisable => rfl
      all_goals
        simp only [step, Hooks.step]
        (try split) <;> exact ih

theorem run_dict (c : Cfg) (h : List LCall) (n : String) (d : Nat) :
    (run c h).dict n d = if inited c h then (lastOf (named n d) c.hooks).map Hook.key else none := by
  induction h with
  | nil => simp [run, init, inited]
  | cons x t ih =>
    have hi := run_initialized c t
    cases x with
    | setWorkers n' d' k =>
      have e : inited c (.setWorkers n' d' k :: t) ↔ inited c t := by simp [inited]
      simp only [e]
      rw [← ih]
      show ((step c (run c t) (.setWorkers n' d' k)).1).dict n d = _
      simp only [step]
      split
      · split
        · split <;> rfl
        · rfl
      · rfl
    | call x =>
      show ((step c (run c t) (.call x)).1).dict n d = _
      cases x
      case doInit =>
        simp only [step]
        by_cases hc : (run c t).hooks.initialized = false ∧ c.avx2 = true
        · rw [if_pos hc, if_pos ⟨by simp, hc.2⟩]
          have hni : ¬ inited c t := by rw [hi] at hc; simpa using hc.1
          rw [if_neg hni] at ih
          have := fold_dict_aux c.hooks [] { run c t with hooks := { (run c t).hooks with initialized := true, old := fun _ => none } } n d
            (by simpa [lastOf] using ih)
          simpa using this
        · rw [if_neg hc, ih]
          by_cases ha : c.avx2 = true
          · have h1 : inited c t := by
              by_contra hx
              exact hc ⟨by rw [hi]; simpa using hx, ha⟩
            rw [if_pos h1, if_pos ⟨by simp, ha⟩]
          · rw [if_neg (fun hh => ha hh.2), if_neg (fun hh => ha hh.2)]
      all_goals
        simp only [step, ih]
        congr 1
        simp [inited]

/-- Kernels are chosen by element type only (the getters take the atop type), and installation went through. -/
structure Std (c : Cfg) : Prop where
  sel : ∀ e d d', atype d = atype d' → c.sel (e, d) = c.sel (e, d')
  stop : c.stop = none

theorem hooks_before (c : Cfg) : c.hooks.Pairwise Before := List.Pairwise.sublist (hooks_sublist c) allHooks_before

theorem name_obj : ∀ e ∈ entries, ∀ e' ∈ entries, ∀ n ∈ nameOf e.op, nameOf e'.op = some n → e.obj = e'.obj := by decide +kernel
theorem name_np : ∀ e ∈ entries, ∀ n ∈ nameOf e.op, npFunc n = some e.obj := by decide +kernel
theorem obj_name : ∀ e ∈ entries, ∀ e' ∈ entries, e.obj = e'.obj → nameOf e.op = nameOf e'.op ∨ e.obj = .invert := by decide +kernel
theorem invert_names : ∀ e ∈ entries, e.obj = .invert → nameOf e.op = some "invert" ∨ (nameOf e.op = some "bitwise_not" ∧ e.op = .BITWISE_NOT) := by decide +kernel
theorem name_start : ∀ e ∈ entries, ∀ n ∈ nameOf e.op, startLimit e.tbl = dfltLimit n := by decide +kernel
theorem name_ufunc : ∀ e ∈ entries, nameOf e.op ≠ none → e ∈ binaryMapping ++ compareMapping ++ unaryMapping ∨ e ∈ trigMapping := by decide +kernel
theorem same_atype : ∀ d ∈ dtypes, ∀ d' ∈ dtypes, Spec.npyType d = Spec.npyType d' → atype d = atype d' := by decide +kernel
theorem op_name : ∀ e ∈ entries, ∀ e' ∈ entries, e.op = e'.op → nameOf e.op = nameOf e'.op := by intro e _ e' _ h; rw [h]

theorem sameType_atype {d d' : Nat} (h : d ∈ dtypes) (h' : d' ∈ dtypes) (hs : sameType d d') : atype d = atype d' := by
  obtain ⟨t, h1, h2⟩ := hs
  exact same_atype d h d' h' (by rw [h1, h2])

theorem hooks_mem {c : Cfg} {h : Hook} (hh : h ∈ c.hooks) : h.1 ∈ entries ∧ h.2 ∈ dtypes := allHooks_mem h ((hooks_sublist c).subset hh)

theorem named_iff {n : String} {d : Nat} {h : Hook} : named n d h = true ↔ nameOf h.1.op = some n ∧ h.2 = d := by simp [named]

/-- The same line of the mapping is tried for every dtype of the same element type. -/
theorem transfer {c : Cfg} (hc : Std c) {h : Hook} (hh : h ∈ c.hooks) (hn : nameOf h.1.op ≠ none) {d' : Nat} (hd' : d' ∈ dtypes) (ha : atype h.2 = atype d') :
    ((h.1, d') : Hook) ∈ c.hooks := by
  obtain ⟨e, d⟩ := h
  have hm := hooks_mem hh
  simp only at *
  have hs := hc.sel e d d' ha
  unfold Cfg.hooks at hh ⊢
  rw [hc.stop] at hh ⊢
  simp only [List.mem_filter] at hh ⊢
  refine ⟨?_, by rw [← hs]; exact hh.2⟩
  rcases name_ufunc e hm.1 hn with he | he
  · simp only [allHooks, List.mem_append, List.mem_flatMap, List.mem_map]
    exact Or.inl (Or.inl ⟨e, by simpa [or_assoc] using he, d', hd', rfl⟩)
  · have htr : d' ∈ trigDtypes := by
      have hd : d ∈ trigDtypes := by
        have := hh.1
        simp only [allHooks, List.mem_append, List.mem_flatMap, List.mem_map, Prod.mk.injEq] at this
        rcases this with (⟨e', he', d1, hd1, rfl, rfl⟩ | ⟨e', he', d1, hd1, rfl, rfl⟩) | ⟨d1, hd1, e', he', rfl, rfl⟩
        · exfalso
          have key : ∀ e ∈ trigMapping, e ∉ binaryMapping ∧ e ∉ compareMapping ∧ e ∉ unaryMapping := by decide +kernel
          rcases he' with (h1 | h1) | h1
          exacts [(key _ he).1 h1, (key _ he).2.1 h1, (key _ he).2.2 h1]
        · exact hd1
        · exfalso
          have key : ∀ e ∈ trigMapping, e ∉ otherMapping := by decide +kernel
          exact key _ he he'
      have key : ∀ d ∈ trigDtypes, ∀ d' ∈ dtypes, atype d = atype d' → d' ∈ trigDtypes := by decide +kernel
      exact key d hd d' hd' ha
    simp only [allHooks, List.mem_append, List.mem_flatMap, List.mem_map]
    exact Or.inl (Or.inr ⟨e, he, d', htr, rfl⟩)

theorem rank_op {h h' : Hook} (he : h.1.op = h'.1.op) : rank h.key = rank h'.key := by
  unfold rank Hook.key
  simp only [he]

/-- Two dtype numbers with the same element type lead to the same table position. -/
theorem last_same {c : Cfg} (hc : Std c) {n : String} {d d' : Nat} {h h' : Hook} (hh : lastOf (named n d) c.hooks = some h)
    (hh' : lastOf (named n d') c.hooks = some h') (ha : atype d = atype d') : h.key = h'.key := by
  obtain ⟨hm, hp⟩ := lastOf_some hh
  obtain ⟨hm', hp'⟩ := lastOf_some hh'
  obtain ⟨hn, hd⟩ := named_iff.1 hp
  obtain ⟨hn', hd'⟩ := named_iff.1 hp'
  have he := hooks_mem hm
  have he' := hooks_mem hm'
  have hobj : h.1.obj = h'.1.obj := name_obj _ he.1 _ he'.1 n (by rw [hn]; rfl) hn'
  have h1 : ((h.1, d') : Hook) ∈ c.hooks := transfer hc hm (by rw [hn]; simp) (hd' ▸ he'.2) (by rw [hd]; exact ha)
  have h2 : ((h'.1, d) : Hook) ∈ c.hooks := transfer hc hm' (by rw [hn']; simp) (hd ▸ he.2) (by rw [hd']; exact ha.symm)
  have r1 := lastOf_rank (hooks_before c) hh' h1 (named_iff.2 ⟨hn, rfl⟩) ⟨hobj, hd'.symm⟩
  have r2 := lastOf_rank (hooks_before c) hh h2 (named_iff.2 ⟨hn', rfl⟩) ⟨hobj.symm, hd.symm⟩
  have e1 : rank (Hook.key (h.1, d')) = rank h.key := rank_op rfl
  have e2 : rank (Hook.key (h'.1, d)) = rank h'.key := rank_op rfl
  have hent : h.1 = h'.1 := by
    rcases r1 with r1 | r1
    · rw [← r1]
    · rcases r2 with r2 | r2
      · rw [← r2]
      · omega
  unfold Hook.key
  rw [hent, hd, hd', ha]

/-- What the dictionary entry says about its key. -/
theorem dict_key {c : Cfg} {n : String} {d : Nat} {h : Hook} (hh : lastOf (named n d) c.hooks = some h) :
    nameOf h.key.op = some n ∧ h.key.atype = atype d ∧ startLimit h.key.tbl = dfltLimit n ∧ d ∈ dtypes ∧ h ∈ c.hooks := by
  obtain ⟨hm, hp⟩ := lastOf_some hh
  obtain ⟨hn, hd⟩ := named_iff.1 hp
  have he := hooks_mem hm
  exact ⟨hn, by rw [← hd]; rfl, name_start _ he.1 n (by rw [hn]; rfl), hd ▸ he.2, hm⟩

theorem run_max (c : Cfg) (hc : Std c) (n : String) (d : Nat) (h : Hook) (hh : lastOf (named n d) c.hooks = some h) (hist : List LCall)
    (hi : inited c hist) : (run c hist).max h.key = lastLimit c (dfltLimit n) n d hist := by
  obtain ⟨hn, hat, hst, hd, hm⟩ := dict_key hh
  induction hist with
  | nil => simp [inited] at hi
  | cons x t ih =>
    cases x with
    | setWorkers n' d' k =>
      have hit : inited c t := by simpa [inited] using hi
      have ih := ih hit
      show ((step c (run c t) (.setWorkers n' d' k)).1).max h.key = _
      simp only [step, lastLimit]
      rw [run_atop, run_dict, if_pos hit]
      by_cases ha : lEnabled t = true
      · rw [if_pos ha]
        cases hl : lastOf (named n' d') c.hooks with
        | none =>
          rw [if_neg]
          · exact ih
          · rintro ⟨_, _, ⟨_, x, hx, hxn, hxd⟩, _⟩
            obtain ⟨y, hy⟩ := lastOf_exists hx (named_iff.2 ⟨hxn, hxd⟩)
            rw [hl] at hy; cases hy
        | some h' =>
          simp only [Option.map_some]
          obtain ⟨hn', hat', _, hd', hm'⟩ := dict_key hl
          by_cases hk : 0 ≤ k ∧ k < 64
          · rw [if_pos hk]
            by_cases hs : n' = n ∧ sameType d' d
            · obtain ⟨rfl, hs⟩ := hs
              rw [if_pos ⟨rfl, hs, ⟨hit.2, h', hm', (named_iff.1 (lastOf_some hl).2).1, (named_iff.1 (lastOf_some hl).2).2⟩, hit.1, ha, hk⟩]
              have := last_same hc hh hl (sameType_atype hd hd' ⟨hs.choose, hs.choose_spec.2, hs.choose_spec.1⟩)
              simp only [this, if_true]
            · rw [if_neg (fun hx => hs ⟨hx.1, hx.2.1⟩)]
              simp only
              rw [if_neg, ih]
              intro he
              apply hs
              rw [he, hn'] at hn
              refine ⟨by simpa using hn, ?_⟩
              apply atype_same d' d hd' hd
              rw [← hat, ← hat', he]
          · rw [if_neg hk, if_neg (fun hx => hk hx.2.2.2.2.2)]
            exact ih
      · rw [if_neg ha, if_neg (fun hx => ha hx.2.2.2.2.1)]
        exact ih
    | call x =>
      have hstep : x ≠ .doInit → ((step c (run c t) (.call x)).1).max = (run c t).max := by
        cases x <;> simp [step]
      show ((step c (run c t) (.call x)).1).max h.key = lastLimit c (dfltLimit n) n d t
      by_cases hx : x = .doInit
      · subst hx
        simp only [step]
        by_cases hcc : (run c t).hooks.initialized = false ∧ c.avx2 = true
        · rw [if_pos hcc]
          simp only
          rw [fold_max, if_pos (List.mem_map_of_mem hm), hst]
          have hni : ¬ LCall.call .doInit ∈ t := by
            have h1 := run_initialized c t
            rw [hcc.1] at h1
            have h1 : ¬ inited c t := by simpa using h1.symm
            exact fun hx => h1 ⟨hx, hcc.2⟩
          clear ih hi hstep hcc
          induction t with
          | nil => rfl
          | cons y u ihu =>
            have hnu : ¬ LCall.call .doInit ∈ u := fun hx => hni (List.mem_cons_of_mem _ hx)
            have key : lastLimit c (dfltLimit n) n d (y :: u) = lastLimit c (dfltLimit n) n d u := by
              cases y with
              | call _ => rfl
              | setWorkers a b e => simp only [lastLimit]; rw [if_neg (fun hx => hnu hx.2.2.2.1)]
            rw [key]
            exact ihu hnu
        · rw [if_neg hcc]
          apply ih
          have h1 := run_initialized c t
          by_contra hx
          exact hcc ⟨by rw [h1]; simpa using hx, hi.2⟩
      · rw [hstep hx]
        apply ih
        refine ⟨?_, hi.2⟩
        have h1 := hi.1
        rcases List.mem_cons.1 h1 with h1 | h1
        · injection h1 with h1; exact absurd h1.symm hx
        · exact h1

theorem run_loops (c : Cfg) (h : List LCall) (hi : inited c h) (o : Obj) (d : Nat) :
    (run c h).hooks.loops o d = match lastHook c.hooks o d with
      | some x => .stub x.key
      | none => .numpy o d := by
  rw [run_hooks]
  have := (run_inv c (hookCalls h)).1.loops o d
  rw [if_pos ⟨(mem_hookCalls h).2 hi.1, hi.2⟩] at this
  exact this

theorem lastHook_eq (L : List Hook) (o : Obj) (d : Nat) : lastHook L o d = lastOf (onLoop o d) L := rfl

/-- The table position in the dictionary is the one of the installed loop, for every name but `invert`. -/
theorem dict_is_loop (c : Cfg) {n : String} {d : Nat} {h : Hook} (hh : lastOf (named n d) c.hooks = some h) (hinv : n ≠ "invert") (o : Obj)
    (ho : npFunc n = some o) : lastHook c.hooks o d = some h := by
  obtain ⟨hm, hp⟩ := lastOf_some hh
  obtain ⟨hn, hd⟩ := named_iff.1 hp
  have he := hooks_mem hm
  have hobj : h.1.obj = o := by
    have := name_np _ he.1 n (by rw [hn]; rfl)
    rw [ho] at this; injection this with this; exact this.symm
  rw [lastHook_eq]
  obtain ⟨h2, hl⟩ := lastOf_exists (p := onLoop o d) hm (by simp [onLoop, hobj, hd])
  rw [hl]
  obtain ⟨hm2, hp2⟩ := lastOf_some hl
  have hp2 : h2.1.obj = o ∧ h2.2 = d := by simpa [onLoop] using hp2
  have he2 := hooks_mem hm2
  have r1 := lastOf_rank (hooks_before c) hl hm (by simp [onLoop, hobj, hd]) ⟨by rw [hobj, hp2.1], by rw [hd, hp2.2]⟩
  rcases r1 with r1 | r1
  · rw [r1]
  · exfalso
    rcases obj_name _ he.1 _ he2.1 (by rw [hobj, hp2.1]) with hx | hx
    · have r2 := lastOf_rank (hooks_before c) hh hm2 (named_iff.2 ⟨by rw [← hx, hn], hp2.2⟩) ⟨by rw [hobj, hp2.1], by rw [hd, hp2.2]⟩
      rcases r2 with r2 | r2
      · rw [r2] at r1; omega
      · omega
    · rcases invert_names _ he.1 hx with hy | hy
      · rw [hn] at hy; injection hy with hy; exact hinv hy
      · have : rank h.key = 1 := by
          unfold rank Hook.key; simp [hy.2]
        have h2r : rank h2.key ≤ 1 := by unfold rank; split <;> omega
        omega

end Pnumpy.WorkerLimit
