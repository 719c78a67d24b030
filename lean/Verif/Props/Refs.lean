import Verif.Model.Refs
import Mathlib.Tactic.Tauto
/-
C106: references are neither dropped twice nor lost.
-/
namespace Pnumpy.Props
open Pnumpy.Spec.Refs Pnumpy.Refs

/-! ### Checking one call -/

/-- Change of the references the running C code owns. -/
def Act.owned (a : Act) : Int := a.count - a.held

/-- References the C code owns after some actions of one call. -/
def lostO (o : Obj) (as : List Act) : Int := (as.map fun a => if a.obj = o then a.count - a.held else 0).sum

/-- The references owned, as a list; `none` if an action gives up a reference that is not owned. -/
def chk : List Obj → List Act → Option (List Obj)
  | L, [] => some L
  | L, .new i :: as => chk (.made i :: L) as
  | L, .take o :: as => chk (o :: L) as
  | L, .drop o :: as => if o ∈ L then chk (L.erase o) as else none
  | L, .steal o :: as => if o ∈ L then chk (L.erase o) as else none
  | L, .give o :: as => if o ∈ L then chk (L.erase o) as else none
  | L, .store _ :: as => chk L as
  | L, .release _ :: as => chk L as

theorem chk_append (L : List Obj) (as bs : List Act) : chk L (as ++ bs) = (chk L as).bind fun M => chk M bs := by
  induction as generalizing L with
  | nil => rfl
  | cons a as ih =>
    cases a <;> simp only [List.cons_append, chk, ih]
    all_goals split <;> simp

theorem chk_lost {L M : List Obj} {as : List Act} (h : chk L as = some M) (o : Obj) : lostO o as = M.count o - L.count o := by
  induction as generalizing L with
  | nil => injection h with h; subst h; simp [lostO]
  | cons a as ih =>
    have gain : ∀ x : Obj, chk (x :: L) as = some M → (if x = o then (1 : Int) else 0) + lostO o as = M.count o - L.count o := by
      intro x hx
      rw [ih hx, List.count_cons]
      by_cases e : x = o
      · simp [e]; omega
      · simp [e]
    have lose : ∀ x : Obj, (if x ∈ L then chk (L.erase x) as else none) = some M → (if x = o then (-1 : Int) else 0) + lostO o as = M.count o - L.count o := by
      intro x hx
      split at hx
      · rename_i hm
        rw [ih hx]
        by_cases e : x = o
        · subst e
          have := List.one_le_count_iff.2 hm
          rw [List.count_erase_self]; simp; omega
        · rw [List.count_erase_of_ne (Ne.symm e)]; simp [e]
      · cases hx
    have keep : ∀ x : Obj, chk L as = some M → (if x = o then (0 : Int) else 0) + lostO o as = M.count o - L.count o := by
      intro x hx; rw [ih hx]; simp
    have hc : lostO o (a :: as) = (if a.obj = o then a.count - a.held else 0) + lostO o as := by simp [lostO]
    rw [hc]
    cases a <;> simp only [Act.obj, Act.count, Act.held] <;> simp only [chk] at h
    · simpa using gain _ h
    · simpa using gain _ h
    · simpa using lose _ h
    · simpa using lose _ h
    · simpa using keep o h
    · simpa using keep o h
    · simpa using lose _ h

theorem chk_prefix {L M : List Obj} {as : List Act} (h : chk L as = some M) (bs cs : List Act) (e : as = bs ++ cs) : ∃ K, chk L bs = some K := by
  subst e
  rw [chk_append] at h
  cases hb : chk L bs with
  | none => rw [hb] at h; cases h
  | some K => exact ⟨K, rfl⟩

/-! ### The calls -/

theorem chk_addToDict (i : Nat) (L : List Obj) : chk L (addToDict i) = some (.made (i + 3) :: .made i :: L) := by
  simp [addToDict, makeKey, chk]

theorem chk_takeOver (f : String) (i : Nat) (L : List Obj) : ∀ k, ∃ K, chk L (takeOver f i k) = some (K ++ .glob (.ufunc f) :: L)
  | 0 => ⟨[], rfl⟩
  | k + 1 => by
    obtain ⟨K, hK⟩ := chk_takeOver f i L k
    refine ⟨.made (i + 4 * k + 3) :: .made (i + 4 * k) :: K, ?_⟩
    rw [takeOver, chk_append, hK]
    simp [chk_addToDict]

theorem chk_takeOverAll : ∀ (fs : List (String × Nat)) (i : Nat) (L : List Obj), ∃ K, chk L (takeOverAll i fs) = some (K ++ L)
  | [], i, L => ⟨[], rfl⟩
  | (f, k) :: fs, i, L => by
    obtain ⟨K, hK⟩ := chk_takeOver f i L k
    obtain ⟨K', hK'⟩ := chk_takeOverAll fs (i + 4 * k) (K ++ .glob (.ufunc f) :: L)
    refine ⟨K' ++ K ++ [.glob (.ufunc f)], ?_⟩
    rw [takeOverAll, chk_append, hK]
    simp [hK']

theorem chk_init (fs : List (String × Nat)) : ∃ K, chk [] (initActs fs) =
    some (((List.range 13).reverse.map fun j => Obj.made (4 + j)) ++ K ++ [.made 2, .glob .setbufsize, .glob .numpy]) := by
  obtain ⟨K, hK⟩ := chk_takeOverAll fs 17 [.made 2, .glob .setbufsize, .glob .numpy]
  refine ⟨K, ?_⟩
  have h1 : chk [] [.take (.glob .numpy), .take (.glob .setbufsize), .new 0, .new 1, .steal (.made 1), .new 2, .drop (.made 0), .release (.made 1), .new 3, .give (.made 3)] =
      some [.made 2, .glob .setbufsize, .glob .numpy] := by decide
  have h2 : ∀ L, chk L ((List.range 13).map (fun j => Act.new (4 + j)) ++ returnOld .none) = some (((List.range 13).reverse.map fun j => Obj.made (4 + j)) ++ L) := by
    intro L
    simp [List.range, List.range.loop, chk, returnOld]
  unfold initActs
  rw [List.append_assoc, chk_append, chk_append, h1]
  simp only [Option.bind_some]
  rw [hK]
  simp only [Option.bind_some]
  rw [h2]
  simp

theorem chk_acts (x : RCall) : ∃ L, chk [] (acts x) = some L := by
  cases x with
  | doInit fs => obtain ⟨K, h⟩ := chk_init fs; exact ⟨_, h⟩
  | returnsBool b => cases b <;> exact ⟨_, rfl⟩
  | info b => cases b <;> exact ⟨_, rfl⟩
  | setWorkers b => cases b <;> exact ⟨_, rfl⟩
  | sort b => cases b <;> exact ⟨_, rfl⟩
  | oldinitNotUfunc f => exact ⟨[], by simp [acts, chk]⟩
  | oldinit f => exact ⟨[.glob (.ufunc f)], by simp [acts, chk, returnNew]⟩
  | getitem d =>
    cases d with
    | plain => exact ⟨_, rfl⟩
    | text => exact ⟨_, rfl⟩
    | numpyInteger d first => cases first <;> exact ⟨[.glob (.descr d)], by simp [acts, chk]⟩
  | _ => exact ⟨_, rfl⟩

/-! ### Histories -/

theorem lost_append (id : Id) (s t : List (Nat × Act)) : lost id (s ++ t) = lost id s + lost id t := by
  unfold lost count held
  simp only [List.map_append, List.sum_append]
  omega

theorem lost_call (c : Nat) (id : Id) (as : List Act) :
    lost id (as.map fun a => (c, a)) = match id with
      | .glob g => lostO (.glob g) as
      | .made c' i => if c' = c then lostO (.made i) as else 0 := by
  induction as with
  | nil => cases id <;> simp [lost, count, held, lostO]
  | cons a as ih =>
    rw [List.map_cons, show ((c, a) :: as.map fun a => (c, a)) = [(c, a)] ++ as.map fun a => (c, a) from rfl, lost_append, ih]
    have hc : ∀ o, lostO o (a :: as) = (if a.obj = o then a.count - a.held else 0) + lostO o as := fun o => by simp [lostO]
    have h1 : lost id [(c, a)] = if a.obj.id c = id then a.count - a.held else 0 := by
      simp only [lost, count, held, List.map_cons, List.map_nil, List.sum_cons, List.sum_nil]
      split <;> simp
    rw [h1]
    cases id with
    | glob g =>
      simp only [hc]
      congr 1
      cases ho : a.obj with
      | glob g' => simp [Obj.id]
      | made i => simp [Obj.id]
    | made c' i =>
      simp only [hc]
      by_cases e : c' = c
      · subst e
        simp only [if_true]
        congr 1
        cases ho : a.obj with
        | glob g' => simp [Obj.id]
        | made i => simp [Obj.id]
      · simp only [if_neg e]
        rw [if_neg]
        · rfl
        · cases ho : a.obj with
          | glob g' => simp [Obj.id]
          | made i => simp only [Obj.id, Id.made.injEq, not_and]; intro h; exact absurd h.symm e

theorem lost_call_nonneg (c : Nat) (id : Id) {L : List Obj} {as : List Act} (h : chk [] as = some L) : 0 ≤ lost id (as.map fun a => (c, a)) := by
  rw [lost_call]
  cases id with
  | glob g => simp only; rw [chk_lost h]; simp
  | made c' i =>
    simp only
    split
    · rw [chk_lost h]; simp
    · exact Int.le_refl _

theorem lost_trace_nonneg (id : Id) : ∀ (hist : List RCall) (c0 : Nat) (s t : List (Nat × Act)), trace c0 hist = s ++ t → 0 ≤ lost id s
  | [], c0, s, t, h => by
    have : s = [] := by
      simp only [trace] at h
      exact (List.append_eq_nil_iff.1 h.symm).1
    subst this; simp [lost, count, held]
  | x :: xs, c0, s, t, h => by
    obtain ⟨L, hL⟩ := chk_acts x
    rw [trace] at h
    rcases List.append_eq_append_iff.1 h with ⟨r, h1, h2⟩ | ⟨r, h1, h2⟩
    · rw [h1, lost_append]
      have a := lost_call_nonneg c0 id hL
      have b := lost_trace_nonneg id xs (c0 + 1) r t h2
      omega
    · obtain ⟨bs, cs, e, e1, e2⟩ := List.map_eq_append_iff.1 h1
      obtain ⟨K, hK⟩ := chk_prefix hL bs cs e
      rw [← e1]
      exact lost_call_nonneg c0 id hK

/-- **C106**, safety: at every moment of every history, the references to any object held by containers, Python code and the module are covered by its reference
count: pnumpy never gives up a reference it does not own, so no object is freed while somebody still holds it. -/
theorem C106_never_dropped_twice (hist : List RCall) (s t : List (Nat × Act)) (h : trace 0 hist = s ++ t) (id : Id) : held id s ≤ count id s := by
  have := lost_trace_nonneg id hist 0 s t h
  unfold lost at this
  omega

/-- Case: in the middle of an `atop_info` call after a failed `oldinit`. -/
example (s t : List (Nat × Act)) (h : trace 0 [.oldinitNotUfunc "pi", .info true] = s ++ t) (id : Id) : held id s ≤ count id s :=
  C106_never_dropped_twice _ s t h id

theorem chk_clean {x : RCall} (h : ¬ Loses x) : chk [] (acts x) = some [] := by
  cases x with
  | doInit fs => exact absurd trivial h
  | returnsBool b => cases b <;> rfl
  | info b => cases b; rfl; exact absurd trivial h
  | setWorkers b => cases b <;> rfl
  | sort b => cases b <;> rfl
  | oldinitNotUfunc f => simp [acts, chk]
  | oldinit f => exact absurd trivial h
  | getitem d =>
    cases d with
    | plain => rfl
    | text => exact absurd trivial h
    | numpyInteger d first => exact absurd trivial h
  | _ => rfl

/-- **C106**: a history of calls that contains no initialisation, no successful `atop_info(name, dtype)`, no successful `oldinit` and no `getitem` with a numpy integer
or a str as default loses no reference to any object: what is not returned to Python is released. -/
theorem C106_balanced_partial (hist : List RCall) (hc : ∀ x ∈ hist, ¬ Loses x) (id : Id) : count id (trace 0 hist) = held id (trace 0 hist) := by
  suffices h : ∀ (c0 : Nat), lost id (trace c0 hist) = 0 by
    have := h 0
    unfold lost at this
    omega
  induction hist with
  | nil => intro c0; simp [trace, lost, count, held]
  | cons x xs ih =>
    intro c0
    rw [trace, lost_append, ih (fun y hy => hc y (List.mem_cons_of_mem _ hy)), lost_call]
    have hx := chk_clean (hc x (List.mem_cons_self ..))
    cases id with
    | glob g => simp only; rw [chk_lost hx]; simp
    | made c i =>
      simp only
      split
      · rw [chk_lost hx]; simp
      · rfl

/-- Case: unsuccessful look-ups, a sort, changes of settings, hooks. -/
example (id : Id) : count id (trace 0 [.info false, .setWorkers true, .sort true, .sort false, .hook, .returnsNone, .raises, .getitem .plain, .infoAll]) =
    held id (trace 0 [.info false, .setWorkers true, .sort true, .sort false, .hook, .returnsNone, .raises, .getitem .plain, .infoAll]) :=
  C106_balanced_partial _ (by
    intro x hx
    simp only [List.mem_cons, List.not_mem_nil, or_false] at hx
    rcases hx with rfl | rfl | rfl | rfl | rfl | rfl | rfl | rfl | rfl <;> simp [Loses]) id

theorem lost_made (i : Nat) : ∀ (hist : List RCall) (c0 c : Nat) (x : RCall), hist[c]? = some x → lost (.made (c0 + c) i) (trace c0 hist) = lostO (.made i) (acts x)
  | [], c0, c, x, h => by simp at h
  | y :: ys, c0, 0, x, h => by
    have e : y = x := by simpa using h
    subst e
    have later : ∀ (zs : List RCall) (d : Nat), c0 < d → lost (.made c0 i) (trace d zs) = 0 := by
      intro zs
      induction zs with
      | nil => intro d _; simp [trace, lost, count, held]
      | cons z zs ih =>
        intro d hd
        rw [trace, lost_append, ih (d + 1) (by omega), lost_call]
        simp only
        rw [if_neg (by omega)]
        rfl
    rw [trace, lost_append, Nat.add_zero, later ys (c0 + 1) (by omega), lost_call]
    simp
  | y :: ys, c0, c + 1, x, h => by
    have := lost_made i ys (c0 + 1) c x (by simpa using h)
    rw [trace, lost_append, show c0 + (c + 1) = c0 + 1 + c from by omega, this, lost_call]
    simp only
    rw [if_neg (by omega)]
    omega

theorem lost_glob (g : Glob) : ∀ (hist : List RCall) (c0 : Nat), lost (.glob g) (trace c0 hist) = (hist.map fun x => lostO (.glob g) (acts x)).sum
  | [], c0 => by simp [trace, lost, count, held]
  | x :: xs, c0 => by rw [trace, lost_append, lost_glob g xs, lost_call]; simp

/-- **C106 violated**: every successful `atop_info(name, dtype)` makes six objects that are never freed, even after Python has dropped the dictionary: one reference
to each is lost. -/
theorem C106_info_violated (hist : List RCall) (c : Nat) (h : hist[c]? = some (.info true)) (i : Nat) (hi : 4 ≤ i) (hi' : i ≤ 9) :
    count (.made c i) (trace 0 hist) = held (.made c i) (trace 0 hist) + 1 := by
  have hl := lost_made i hist 0 c _ h
  rw [Nat.zero_add] at hl
  have e : chk [] (acts (.info true)) = some [.made 9, .made 8, .made 7, .made 6, .made 5, .made 4] := by decide
  rw [chk_lost e] at hl
  have : i = 4 ∨ i = 5 ∨ i = 6 ∨ i = 7 ∨ i = 8 ∨ i = 9 := by omega
  unfold lost at hl
  rcases this with rfl | rfl | rfl | rfl | rfl | rfl <;> simp at hl <;> omega

/-- Case: three look-ups, the objects of the second. -/
example : count (.made 1 4) (trace 0 [.info true, .info true, .info true]) = held (.made 1 4) (trace 0 [.info true, .info true, .info true]) + 1 :=
  C106_info_violated _ 1 rfl 4 (by decide) (by decide)

/-- **C106 violated**: the type object of a numpy integer loses one reference with every `getitem` that has such a default. -/
theorem C106_getitem_violated (hist : List RCall) (d : Int) :
    count (.glob (.descr d)) (trace 0 hist) = held (.glob (.descr d)) (trace 0 hist) +
      (hist.filter fun x => x = .getitem (.numpyInteger d true) ∨ x = .getitem (.numpyInteger d false)).length := by
  have h := lost_glob (.descr d) hist 0
  have e : ∀ x : RCall, lostO (.glob (.descr d)) (acts x) = if x = .getitem (.numpyInteger d true) ∨ x = .getitem (.numpyInteger d false) then 1 else 0 := by
    intro x
    by_cases hx : Loses x
    · cases x with
      | doInit fs =>
        have aux : ∀ (fs : List (String × Nat)) (i : Nat), lostO (.glob (.descr d)) (takeOverAll i fs) = 0 := by
          intro fs
          induction fs with
          | nil => intro i; rfl
          | cons p fs ih =>
            intro i
            have one : ∀ k, lostO (.glob (.descr d)) (takeOver p.1 i k) = 0 := by
              intro k
              induction k with
              | zero => simp [takeOver, lostO, Act.obj]
              | succ k ih => simp only [takeOver, lostO, List.map_append, List.sum_append] at ih ⊢; rw [ih]; simp [addToDict, makeKey, Act.obj]
            have := one p.2
            have ih := ih (i + 4 * p.2)
            simp only [takeOverAll, lostO, List.map_append, List.sum_append] at this ih ⊢
            rw [this, ih]; rfl
        have h0 := aux fs 17
        simp only [acts, initActs, lostO, List.map_append, List.sum_append] at h0 ⊢
        rw [h0]
        simp [Act.obj, returnOld, List.range, List.range.loop]
      | info b => cases b <;> simp [acts, getFromDict, makeKey, describe, returnOld, lostO, Act.obj]
      | oldinit f => simp [acts, returnNew, lostO, Act.obj]
      | getitem k =>
        cases k with
        | plain => simp [acts, returnNew, lostO, Act.obj]
        | text => simp [acts, lostO, Act.obj]
        | numpyInteger d' first =>
          cases first <;> by_cases e : d' = d <;> simp [acts, lostO, Act.obj, Act.count, Act.held, e]
      | _ => exact absurd hx (by simp [Loses])
    · rw [chk_lost (chk_clean hx)]
      rw [if_neg]
      · simp
      · rintro (rfl | rfl) <;> exact hx trivial
  have hs : (hist.map fun x => lostO (.glob (.descr d)) (acts x)).sum =
      ((hist.filter fun x => x = .getitem (.numpyInteger d true) ∨ x = .getitem (.numpyInteger d false)).length : Int) := by
    clear h
    induction hist with
    | nil => rfl
    | cons x xs ih =>
      rw [List.map_cons, List.sum_cons, ih, e, List.filter_cons]
      by_cases hx : x = .getitem (.numpyInteger d true) ∨ x = .getitem (.numpyInteger d false)
      · simp [hx]; omega
      · simp [hx]
  rw [hs] at h
  unfold lost at h
  omega

/-- Case: int64 defaults (type 7) twice. -/
example : count (.glob (.descr 7)) (trace 0 [.getitem (.numpyInteger 7 true), .getitem .plain, .getitem (.numpyInteger 7 false)]) =
    held (.glob (.descr 7)) (trace 0 [.getitem (.numpyInteger 7 true), .getitem .plain, .getitem (.numpyInteger 7 false)]) + 2 :=
  C106_getitem_violated _ 7

/-- **C106 violated**: `initialize()` loses its 13 arrays and a reference to numpy; a str default loses a copy of the text; each successful `oldinit(f)` loses a
reference to the function. -/
theorem C106_other_violated (hist : List RCall) (c : Nat) :
    (∀ fs, hist[c]? = some (.doInit fs) → ∀ j, j < 13 → held (.made c (4 + j)) (trace 0 hist) < count (.made c (4 + j)) (trace 0 hist)) ∧
    (hist[c]? = some (.getitem .text) → held (.made c 1) (trace 0 hist) < count (.made c 1) (trace 0 hist)) ∧
    (∀ f, hist[c]? = some (.oldinit f) → held (.glob (.ufunc f)) (trace 0 hist) < count (.glob (.ufunc f)) (trace 0 hist)) := by
  refine ⟨?_, ?_, ?_⟩
  · intro fs h j hj
    have hl := lost_made (4 + j) hist 0 c _ h
    rw [Nat.zero_add] at hl
    obtain ⟨K, hK⟩ := chk_init fs
    have e : chk [] (acts (.doInit fs)) = _ := hK
    rw [chk_lost e] at hl
    have hm : Obj.made (4 + j) ∈ ((List.range 13).reverse.map fun j => Obj.made (4 + j)) ++ K ++ [.made 2, .glob .setbufsize, .glob .numpy] := by
      simp only [List.mem_append, List.mem_map, List.mem_reverse, List.mem_range]
      exact Or.inl (Or.inl ⟨j, hj, rfl⟩)
    have := List.one_le_count_iff.2 hm
    unfold lost at hl
    simp only [List.count_nil] at hl
    omega
  · intro h
    have hl := lost_made 1 hist 0 c _ h
    rw [Nat.zero_add] at hl
    have e : chk [] (acts (.getitem .text)) = some [.made 1] := by decide
    rw [chk_lost e] at hl
    unfold lost at hl
    simp at hl
    omega
  · intro f h
    have hl := lost_glob (.ufunc f) hist 0
    have hpos : ∀ x, 0 ≤ lostO (.glob (.ufunc f)) (acts x) := by
      intro x
      obtain ⟨L, hL⟩ := chk_acts x
      rw [chk_lost hL]; simp
    have hone : lostO (.glob (.ufunc f)) (acts (.oldinit f)) = 1 := by
      have e : chk [] (acts (.oldinit f)) = some [.glob (.ufunc f)] := by simp [acts, chk, returnNew]
      rw [chk_lost e]; simp
    have hs : 1 ≤ (hist.map fun x => lostO (.glob (.ufunc f)) (acts x)).sum := by
      clear hl
      have nn : ∀ l : List RCall, 0 ≤ (l.map fun x => lostO (.glob (.ufunc f)) (acts x)).sum := by
        intro l
        induction l with
        | nil => simp
        | cons x xs ih => have := hpos x; simp only [List.map_cons, List.sum_cons]; omega
      induction hist generalizing c with
      | nil => simp at h
      | cons x xs ih =>
        cases c with
        | zero =>
          have e : x = .oldinit f := by simpa using h
          subst e
          have := nn xs
          simp only [List.map_cons, List.sum_cons]; omega
        | succ c =>
          have := ih c (by simpa using h)
          have := hpos x
          simp only [List.map_cons, List.sum_cons]; omega
    unfold lost at hl
    omega

/-- Case: import, then `oldinit("add")`, then `getitem(a, i, "x")`. -/
example : held (.made 0 4) (trace 0 [.doInit [("add", 2)], .oldinit "add", .getitem .text]) < count (.made 0 4) (trace 0 [.doInit [("add", 2)], .oldinit "add", .getitem .text]) ∧
    held (.glob (.ufunc "add")) (trace 0 [.doInit [("add", 2)], .oldinit "add", .getitem .text]) <
      count (.glob (.ufunc "add")) (trace 0 [.doInit [("add", 2)], .oldinit "add", .getitem .text]) :=
  ⟨(C106_other_violated _ 0).1 _ rfl 0 (by decide), (C106_other_violated _ 1).2.2 "add" rfl⟩

/-- C106, exactly: nothing is lost over a history — every object's count is the number of references held to it — if and only if the history has none of the
calls of `Loses`. -/
theorem C106_iff_partial (hist : List RCall) : (∀ id, count id (trace 0 hist) = held id (trace 0 hist)) ↔ ∀ x ∈ hist, ¬ Loses x := by
  refine ⟨fun h x hx hl => ?_, fun hc id => C106_balanced_partial hist hc id⟩
  obtain ⟨c, hc⟩ := List.mem_iff_getElem?.1 hx
  obtain ⟨h1, h2, h3⟩ := C106_other_violated hist c
  cases x with
  | doInit fs => exact absurd (h _) (Int.ne_of_gt (h1 fs hc 0 (by decide)))
  | info b =>
    cases b with
    | true => have := C106_info_violated hist c hc 4 (by decide) (by decide); have := h (.made c 4); omega
    | false => exact hl
  | oldinit f => exact absurd (h _) (Int.ne_of_gt (h3 f hc))
  | getitem d =>
    cases d with
    | plain => exact hl
    | numpyInteger t b =>
      have e := C106_getitem_violated hist t
      have hp : 0 < (hist.filter fun x => x = .getitem (.numpyInteger t true) ∨ x = .getitem (.numpyInteger t false)).length := by
        refine List.length_pos_of_mem (a := .getitem (.numpyInteger t b)) (List.mem_filter.2 ⟨hx, ?_⟩)
        cases b <;> simp
      have := h (.glob (.descr t))
      omega
    | text => exact absurd (h _) (Int.ne_of_gt (h2 hc))
  | raises => exact hl
  | returnsNone => exact hl
  | returnsBool b => exact hl
  | returnsNew => exact hl
  | infoAll => exact hl
  | setWorkers b => exact hl
  | hook => exact hl
  | oldinitMissing => exact hl
  | oldinitNotUfunc n => exact hl
  | sort b => exact hl

/-- Cases: look-ups that find nothing, sorts and a plain `getitem` lose nothing; one successful look-up among them does. -/
example : ∀ id, count id (trace 0 [.info false, .sort true, .getitem .plain]) = held id (trace 0 [.info false, .sort true, .getitem .plain]) :=
  (C106_iff_partial _).2 (by simp [Loses])
example : ¬ ∀ id, count id (trace 0 [.info false, .info true, .sort true]) = held id (trace 0 [.info false, .info true, .sort true]) :=
  fun h => (C106_iff_partial _).1 h (.info true) (by decide) trivial

end Pnumpy.Props
