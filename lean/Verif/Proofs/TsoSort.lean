import Verif.Model.TsoSort
import Verif.Proofs.ParSortLive
/-
The parallel sort with store buffers: every state corresponds to a state of the invariant of Proofs/ParSort.
-/
namespace Pnumpy.TsoSort
open Pnumpy.Sort ParSort
variable {V : Type}

theorem load_congr {m m' : Loc → V} (b : List (Loc × V)) {x : Loc} : ∀ {m m' : Loc → V}, m x = m' x → load m b x = load m' b x := by
  induction b with
  | nil => intro m m' h; exact h
  | cons p b ih =>
    intro m m' h
    rw [load, load]
    apply ih
    show (if x = p.1 then p.2 else m x) = if x = p.1 then p.2 else m' x
    rw [h]

theorem load_append (b : List (Loc × V)) (l : Loc) (v : V) : ∀ (m : Loc → V), load m (b ++ [(l, v)]) = fun x => if x = l then v else load m b x := by
  induction b with
  | nil => intro m; rfl
  | cons p b ih =>
    intro m
    funext x
    show load (fun x => if x = p.1 then p.2 else m x) (b ++ [(l, v)]) x = _
    rw [ih]
    rfl

theorem load_not_mem {x : Loc} (b : List (Loc × V)) : ∀ (m : Loc → V), (∀ q ∈ b, q.1 ≠ x) → load m b x = m x := by
  induction b with
  | nil => intro m _; rfl
  | cons p b ih =>
    intro m h
    rw [load, ih _ fun q hq => h q (List.mem_cons_of_mem _ hq)]
    exact if_neg (fun e => h p (by simp) e.symm)

/-- Code that accesses only cells of `O` does not notice changes elsewhere. -/
theorem seq_local (O : Loc → Prop) (p : Prog V) : ∀ (m m' : Loc → V), (∀ l, O l → m l = m' l) → (∀ l ∈ seqAcc p m, O l) →
    (∀ l ∈ seqAcc p m', O l) ∧ ∀ l, O l → seqRun p m' l = seqRun p m l := by
  induction p with
  | done => intro m m' h _; exact ⟨by simp [seqAcc], fun l hl => (h l hl).symm⟩
  | load l k ih =>
    intro m m' h ha
    have hl := ha l (by simp [seqAcc])
    have := ih (m l) m m' h (fun x hx => ha x (by simp [seqAcc, hx]))
    rw [seqAcc, seqRun, seqRun, ← h l hl]
    exact ⟨fun x hx => by
      rcases List.mem_cons.1 hx with rfl | hx
      · exact hl
      · exact this.1 x hx, this.2⟩
  | store l v k ih =>
    intro m m' h ha
    have hl := ha l (by simp [seqAcc])
    have := ih (fun x => if x = l then v else m x) (fun x => if x = l then v else m' x)
      (fun x hx => by by_cases e : x = l <;> simp [e, h x hx]) (fun x hx => ha x (by simp [seqAcc, hx]))
    rw [seqAcc, seqRun, seqRun]
    exact ⟨fun x hx => by
      rcases List.mem_cons.1 hx with rfl | hx
      · exact hl
      · exact this.1 x hx, this.2⟩

section
variable (n : Nat) (src : Option (List V)) (prog : Nat → Nat → Prog V) (m1 : Loc → V)

/-- What is known of a thread that runs node `(k, j)` with `p` left. -/
structure Running (mem : Loc → V) (buf : List (Loc × V)) (s : PS V) (k j : Nat) (p : Prog V) : Prop where
  node : ∃ m0, s.st (k, j) = .running (snapOf n src k j m0) ∧
    ∀ l, Own n k j l → seqRun p (load mem buf) l = seqRun (prog k j) m0 l
  acc : ∀ l ∈ seqAcc p (load mem buf), Own n k j l
  mine : ∀ q ∈ buf, Own n k j q.1
  arr : ∀ i, Own n k j (.arr i) → s.a[i]? = some (load mem buf (.arr i))

/-- How the machine's state corresponds to a state of Model/ParSort. -/
structure Rel (t : St V) (s : PS V) : Prop where
  next : s.next = t.next
  lvl : s.lvl = t.lvl
  completed : s.completed = t.completed
  run : ∀ c k j p, t.pc c = .run k j p → Running n src prog t.mem (t.buf c) s k j p
  uniq : ∀ c d k j p q, t.pc c = .run k j p → t.pc d = .run k j q → c = d
  quiet : ∀ c, (∀ k j p, t.pc c ≠ .run k j p) → t.buf c = []
  rest : ∀ i, i < n → (∀ c k j p, t.pc c = .run k j p → ¬ Own n k j (.arr i)) → s.a[i]? = some (t.mem (.arr i))
  other : ∀ i, t.mem (.other i) = m1 (.other i)

end

/-- Everything the sort produces satisfies `P`. -/
structure Clean (P : V → Prop) (Q : Nat → Nat → List V → Prop) (a0 : List V) : Prop where
  of : ∀ k j S, Q k j S → ∀ x ∈ S, P x
  ini : ∀ x ∈ a0, P x

section
variable {P : V → Prop} {leaf mrg : LeafFn V} {n : Nat} {Q : Nat → Nat → List V → Prop} {src : Option (List V)} {a0 : List V} {prog : Nat → Nat → Prog V} {m1 : Loc → V}

theorem own_disjoint {s : PS V} (tr : Tree s) {k j k' j' : Nat} {x y : List V} (h : s.st (k, j) = .running x) (h' : s.st (k', j') = .running y)
    (hne : (k, j) ≠ (k', j')) {l : Loc} (h1 : Own n k j l) (h2 : Own n k' j' l) : False := by
  have hd := tr.disjoint (n := n) (Or.inr (Or.inl ⟨x, h⟩)) (Or.inr (Or.inl ⟨y, h'⟩)) hne
  cases l with
  | arr i => simp only [Own] at h1 h2; omega
  | ws i => simp only [Own] at h1 h2; omega
  | other i => exact h1

theorem Running.running {mem : Loc → V} {buf : List (Loc × V)} {s : PS V} {k j : Nat} {p : Prog V} (h : Running n src prog mem buf s k j p) :
    ∃ x, s.st (k, j) = .running x := by
  obtain ⟨m0, h, _⟩ := h.node
  exact ⟨_, h⟩

/-- A running thread does not notice changes outside its node. -/
theorem Running.frame {mem mem' : Loc → V} {buf : List (Loc × V)} {s s' : PS V} {k j : Nat} {p : Prog V} (h : Running n src prog mem buf s k j p)
    (hm : ∀ l, Own n k j l → mem' l = mem l) (hst : s'.st (k, j) = s.st (k, j)) (ha : ∀ i, Own n k j (.arr i) → s'.a[i]? = s.a[i]?) :
    Running n src prog mem' buf s' k j p := by
  have hl : ∀ l, Own n k j l → load mem buf l = load mem' buf l := fun l hl => load_congr (m := mem) (m' := mem) buf (hm l hl).symm
  obtain ⟨h1, h2⟩ := seq_local (Own n k j) p _ _ hl h.acc
  obtain ⟨m0, h3, h4⟩ := h.node
  exact ⟨⟨m0, by rw [hst, h3], fun l hl => by rw [h2 l hl, h4 l hl]⟩, h1, h.mine, fun i hi => by rw [ha i hi, h.arr i hi, hl _ hi]⟩

theorem Rel.ne_node {t : St V} {s : PS V} (r : Rel n src prog m1 t s) {c d k j k' j' : Nat} {p q : Prog V} (hc : t.pc c = .run k j p) (hd : t.pc d = .run k' j' q)
    (h : d ≠ c) : (k', j') ≠ (k, j) := by
  intro e
  obtain ⟨rfl, rfl⟩ := Prod.mk.inj e
  exact h (r.uniq d c _ _ q p hd hc)

/-- A buffered store reaches memory. -/
theorem rel_drain {t : St V} {s : PS V} (tr : Tree s) (r : Rel n src prog m1 t s) {c : Nat} {a : Loc} {v : V} {l : List (Loc × V)} (hb : t.buf c = (a, v) :: l) :
    Rel n src prog m1 { t with mem := fun x => if x = a then v else t.mem x, buf := Function.update t.buf c l } s := by
  have hrun : ∃ k j p, t.pc c = .run k j p := by
    by_contra h
    have := r.quiet c fun k j p e => h ⟨k, j, p, e⟩
    rw [hb] at this; cases this
  obtain ⟨k, j, p, hc⟩ := hrun
  have rc := r.run c k j p hc
  obtain ⟨x, hx⟩ := rc.running
  have hown : Own n k j a := rc.mine (a, v) (by rw [hb]; simp)
  have hload : load (fun x => if x = a then v else t.mem x) l = load t.mem (t.buf c) := by rw [hb]; rfl
  refine ⟨r.next, r.lvl, r.completed, ?_, r.uniq, ?_, ?_, ?_⟩
  · intro d k' j' q hd
    by_cases e : d = c
    · subst e
      rw [hc] at hd; cases hd
      show Running n src prog _ (Function.update t.buf d l d) s k j p
      rw [Function.update_self]
      exact ⟨by rw [hload]; exact rc.node, by rw [hload]; exact rc.acc, fun q hq => rc.mine q (by rw [hb]; exact List.mem_cons_of_mem _ hq), by rw [hload]; exact rc.arr⟩
    · show Running n src prog _ (Function.update t.buf c l d) s k' j' q
      rw [Function.update_of_ne e]
      have rd := r.run d k' j' q hd
      obtain ⟨y, hy⟩ := rd.running
      refine rd.frame (fun l hl => if_neg ?_) rfl fun i hi => rfl
      rintro rfl
      exact own_disjoint tr hx hy (r.ne_node hd hc (Ne.symm e)) hown hl
  · intro d hd
    by_cases e : d = c
    · subst e; exact absurd hc (hd k j p)
    · show Function.update t.buf c l d = []
      rw [Function.update_of_ne e]; exact r.quiet d hd
  · intro i hi hno
    rw [r.rest i hi hno]
    have : ¬ (Loc.arr i = a) := fun e => hno c k j p hc (e ▸ hown)
    show some (t.mem _) = some (if Loc.arr i = a then v else t.mem (.arr i))
    rw [if_neg this]
  · intro i
    have : ¬ (Loc.other i = a) := fun e => by rw [← e] at hown; exact hown
    show (if Loc.other i = a then v else t.mem (.other i)) = _
    rw [if_neg this]
    exact r.other i

/-- A thread outside the nodes changes its place. -/
theorem rel_quiet {t : St V} {s : PS V} (r : Rel n src prog m1 t s) {c : Nat} (hc : ∀ k j p, t.pc c ≠ .run k j p) {x : PC V} (hx : ∀ k j p, x ≠ .run k j p) :
    Rel n src prog m1 { t with pc := Function.update t.pc c x } s := by
  have hpc : ∀ d k j p, Function.update t.pc c x d = .run k j p → t.pc d = .run k j p := by
    intro d k j p h
    by_cases e : d = c
    · subst e; rw [Function.update_self] at h; exact absurd h (hx k j p)
    · rwa [Function.update_of_ne e] at h
  refine ⟨r.next, r.lvl, r.completed, fun d k j p h => r.run d k j p (hpc d k j p h), fun d e k j p q h h' => r.uniq d e k j p q (hpc _ _ _ _ h) (hpc _ _ _ _ h'), ?_, ?_, r.other⟩
  · intro d hd
    by_cases e : d = c
    · subst e; exact r.quiet d hc
    · exact r.quiet d fun k j p h => hd k j p (by show Function.update t.pc c x d = _; rw [Function.update_of_ne e]; exact h)
  · intro i hi hno
    refine r.rest i hi fun d k j p h => ?_
    by_cases e : d = c
    · subst e; exact absurd h (hc k j p)
    · exact hno d k j p (by show Function.update t.pc c x d = _; rw [Function.update_of_ne e]; exact h)

/-- A plain load. -/
theorem rel_load {t : St V} {s : PS V} (r : Rel n src prog m1 t s) {c k j : Nat} {l : Loc} {f : V → Prog V} (hc : t.pc c = .run k j (.load l f)) :
    Rel n src prog m1 { t with pc := Function.update t.pc c (.run k j (f (load t.mem (t.buf c) l))) } s := by
  have rc := r.run c k j _ hc
  have hpc : ∀ d k' j' q, Function.update t.pc c (.run k j (f (load t.mem (t.buf c) l))) d = .run k' j' q → ∃ q', t.pc d = .run k' j' q' := by
    intro d k' j' q h
    by_cases e : d = c
    · subst e; rw [Function.update_self] at h; cases h; exact ⟨_, hc⟩
    · rw [Function.update_of_ne e] at h; exact ⟨q, h⟩
  have hpc' : ∀ d k' j' q, t.pc d = .run k' j' q → ∃ q', Function.update t.pc c (.run k j (f (load t.mem (t.buf c) l))) d = .run k' j' q' := by
    intro d k' j' q h
    by_cases e : d = c
    · subst e; rw [hc] at h; cases h; exact ⟨_, Function.update_self ..⟩
    · rw [Function.update_of_ne e]; exact ⟨q, h⟩
  refine ⟨r.next, r.lvl, r.completed, ?_, ?_, ?_, ?_, r.other⟩
  · intro d k' j' q hd
    by_cases e : d = c
    · subst e
      have hd : Function.update t.pc d (.run k j (f (load t.mem (t.buf d) l))) d = .run k' j' q := hd
      rw [Function.update_self] at hd; cases hd
      exact ⟨rc.node, fun x hx => rc.acc x (by rw [seqAcc]; exact List.mem_cons_of_mem _ hx), rc.mine, rc.arr⟩
    · have hd : Function.update t.pc c (.run k j (f (load t.mem (t.buf c) l))) d = .run k' j' q := hd
      rw [Function.update_of_ne e] at hd
      exact r.run d k' j' q hd
  · intro d e k' j' p q h h'
    obtain ⟨_, h⟩ := hpc _ _ _ _ h
    obtain ⟨_, h'⟩ := hpc _ _ _ _ h'
    exact r.uniq d e k' j' _ _ h h'
  · intro d hd
    refine r.quiet d fun k' j' q h => ?_
    obtain ⟨_, h⟩ := hpc' _ _ _ _ h
    exact hd _ _ _ h
  · intro i hi hno
    refine r.rest i hi fun d k' j' q h => ?_
    obtain ⟨_, h⟩ := hpc' _ _ _ _ h
    exact hno _ _ _ _ h

/-- The state after a store into cell `l`. -/
def storeAt (s : PS V) (l : Loc) (v : V) : PS V :=
  match l with
  | .arr i => { s with a := s.a.set i v }
  | _ => s

theorem storeAt_st (s : PS V) (l : Loc) (v : V) : (storeAt s l v).st = s.st ∧ (storeAt s l v).next = s.next ∧ (storeAt s l v).lvl = s.lvl ∧
    (storeAt s l v).completed = s.completed ∧ (storeAt s l v).w = s.w := by cases l <;> exact ⟨rfl, rfl, rfl, rfl, rfl⟩

theorem storeAt_get (s : PS V) (l : Loc) (v : V) (i : Nat) (hi : i < s.a.length) :
    (storeAt s l v).a[i]? = if Loc.arr i = l then some v else s.a[i]? := by
  cases l with
  | arr x =>
    show (s.a.set x v)[i]? = _
    rw [List.getElem?_set]
    by_cases e : x = i
    · subst e; rw [if_pos rfl, if_pos rfl, if_pos hi]
    · rw [if_neg e, if_neg (fun h => e (by cases h; rfl))]
  | ws x => rw [if_neg (by simp)]; rfl
  | other x => rw [if_neg (by simp)]; rfl

theorem storeAt_inv {s : PS V} (i : Inv n Q src a0 s) {k j : Nat} {x : List V} (h : s.st (k, j) = .running x) {l : Loc} (ho : Own n k j l) (v : V) :
    Inv n Q src a0 (storeAt s l v) := by
  have hw : Within (nodeLo n k j) (nodeHi n k j) (storeAt s l v).a s.a := by
    cases l with
    | arr y =>
      refine ⟨List.length_set, fun p hp => ?_⟩
      show (s.a.set y v)[p]? = _
      rw [List.getElem?_set, if_neg]
      rintro rfl
      exact hp ho
    | ws y => exact Within.refl _ _ _
    | other y => exact Within.refl _ _ _
  have := i.touch h hw rfl
  cases l <;> exact this

/-- A plain store. -/
theorem rel_store {t : St V} {s : PS V} (i : Inv n Q src a0 s) (r : Rel n src prog m1 t s) {c k j : Nat} {l : Loc} {v : V} {p : Prog V} (hc : t.pc c = .run k j (.store l v p)) :
    Inv n Q src a0 (storeAt s l v) ∧
    Rel n src prog m1 { t with buf := Function.update t.buf c (t.buf c ++ [(l, v)]), pc := Function.update t.pc c (.run k j p) } (storeAt s l v) := by
  have rc := r.run c k j _ hc
  obtain ⟨x, hx⟩ := rc.running
  have hown : Own n k j l := rc.acc l (by rw [seqAcc]; exact List.mem_cons_self)
  have hv := i.tree.valid k j (by rw [hx]; exact fun h => by cases h)
  obtain ⟨e1, e2, e3, e4, e5⟩ := storeAt_st s l v
  have hlt : ∀ {k j i'}, Valid k j → Own n k j (.arr i') → i' < s.a.length := by
    intro k j i' hv ho
    have := nodeHi_le (n := n) hv
    rw [i.content.la]; simp only [Own] at ho; omega
  have hpc : ∀ d k' j' q, Function.update t.pc c (.run k j p) d = .run k' j' q → ∃ q', t.pc d = .run k' j' q' := by
    intro d k' j' q h
    by_cases e : d = c
    · subst e; rw [Function.update_self] at h; cases h; exact ⟨_, hc⟩
    · rw [Function.update_of_ne e] at h; exact ⟨q, h⟩
  have hpc' : ∀ d k' j' q, t.pc d = .run k' j' q → ∃ q', Function.update t.pc c (.run k j p) d = .run k' j' q' := by
    intro d k' j' q h
    by_cases e : d = c
    · subst e; rw [hc] at h; cases h; exact ⟨_, Function.update_self ..⟩
    · rw [Function.update_of_ne e]; exact ⟨q, h⟩
  refine ⟨storeAt_inv i hx hown v, ⟨e2.trans r.next, e3.trans r.lvl, e4.trans r.completed, ?_, ?_, ?_, ?_, r.other⟩⟩
  · intro d k' j' q hd0
    have hd : Function.update t.pc c (.run k j p) d = .run k' j' q := hd0
    clear hd0
    show Running n src prog t.mem (Function.update t.buf c (t.buf c ++ [(l, v)]) d) _ k' j' q
    by_cases e : d = c
    · subst e
      rw [Function.update_self] at hd ⊢; cases hd
      refine ⟨?_, ?_, ?_, ?_⟩
      · obtain ⟨m0, h1, h2⟩ := rc.node
        exact ⟨m0, by rw [e1, h1], fun y hy => by rw [load_append]; exact h2 y hy⟩
      · intro y hy
        rw [load_append] at hy
        exact rc.acc y (by rw [seqAcc]; exact List.mem_cons_of_mem _ hy)
      · intro y hy
        rcases List.mem_append.1 hy with hy | hy
        · exact rc.mine y hy
        · rw [List.mem_singleton.1 hy]; exact hown
      · intro i' hi'
        rw [storeAt_get _ _ _ _ (hlt hv hi'), load_append]
        simp only
        split
        · rfl
        · exact rc.arr i' hi'
    · rw [Function.update_of_ne e] at hd ⊢
      have rd := r.run d k' j' q hd
      obtain ⟨y, hy⟩ := rd.running
      have hv' := i.tree.valid k' j' (by rw [hy]; exact fun h => by cases h)
      refine rd.frame (fun _ _ => rfl) (by rw [e1]) fun i' hi' => ?_
      rw [storeAt_get _ _ _ _ (hlt hv' hi'), if_neg]
      have hne := r.ne_node hd hc (Ne.symm e)
      rintro rfl
      exact own_disjoint i.tree hx hy hne hown hi'
  · intro d e k' j' p q h h'
    obtain ⟨_, h⟩ := hpc _ _ _ _ h
    obtain ⟨_, h'⟩ := hpc _ _ _ _ h'
    exact r.uniq d e k' j' _ _ h h'
  · intro d hd
    have hq := r.quiet d fun k' j' q h => by
      obtain ⟨_, h⟩ := hpc' _ _ _ _ h
      exact hd _ _ _ h
    have hdc : d ≠ c := fun e => by
      subst e
      exact hd k j p (Function.update_self ..)
    show Function.update t.buf c _ d = []
    rw [Function.update_of_ne hdc]; exact hq
  · intro i' hi' hno
    have hno' : ∀ d k' j' q, t.pc d = .run k' j' q → ¬ Own n k' j' (.arr i') := fun d k' j' q h => by
      obtain ⟨_, h⟩ := hpc' _ _ _ _ h
      exact hno _ _ _ _ h
    rw [storeAt_get _ _ _ _ (by rw [i.content.la]; exact hi'), if_neg, r.rest i' hi' hno']
    rintro rfl
    exact hno' c k j _ hc hown

/-- The workspace of node `(k, j)` set to the contents of `m`. -/
def wsOf (n k j : Nat) (m : Loc → V) (w : List V) : List V :=
  w.mapIdx fun i x => if nodeWs n k j ≤ i ∧ i < nodeWs n k (j + 1) then m (.ws i) else x

theorem wsOf_length (k j : Nat) (m : Loc → V) (w : List V) : (wsOf n k j m w).length = w.length := by simp [wsOf]

theorem wsOf_get {k j : Nat} {m : Loc → V} {w : List V} {i : Nat} (h1 : nodeWs n k j ≤ i) (h2 : i < nodeWs n k (j + 1)) (hv : Valid k j) (hw : w.length = 8 * chunk n) :
    (wsOf n k j m w)[i]? = some (m (.ws i)) := by
  have := nodeWs_le (n := n) hv
  unfold wsOf
  rw [List.getElem?_mapIdx, List.getElem?_eq_getElem (by omega), Option.map_some, if_pos ⟨h1, h2⟩]

theorem clean_snap (hq : Clean P Q a0) {s : PS V} (i : Inv n Q src a0 s) {k j : Nat} {snap : List V} (h : s.st (k, j) = .running snap) : ∀ x ∈ snap, P x := by
  cases k with
  | zero =>
    rw [i.content.cRun0 j snap h]
    exact fun x hx => hq.ini x (List.mem_of_mem_drop (List.mem_of_mem_take hx))
  | succ k =>
    obtain ⟨L, R, rfl, hL, hR⟩ := i.content.cRun k j snap h
    intro x hx
    rcases List.mem_append.1 hx with hx | hx
    · exact hq.of _ _ _ hL x hx
    · exact hq.of _ _ _ hR x hx

/-- What the function of a running node computes, with the workspace `m`. -/
theorem code_runs (hc : NContract leaf mrg n a0 Q) (hn : 16 ≤ n) (h0 : a0.length = n) (hq : Clean P Q a0) (hcode : CodeFor leaf mrg n src P prog) {s : PS V} (i : Inv n Q src a0 s)
    {k j : Nat} {m : Loc → V} (h : s.st (k, j) = .running (snapOf n src k j m)) :
    (∀ l ∈ seqAcc (prog k j) m, Own n k j l) ∧
    ∃ (a' w' : List V), Within (nodeLo n k j) (nodeHi n k j) a' s.a ∧ w'.length = s.w.length ∧ Q k j (part n a' k j) ∧
      ∀ x, nodeLo n k j ≤ x → x < nodeHi n k j → a'[x]? = some (seqRun (prog k j) m (.arr x)) := by
  have hv := i.tree.valid k j (by rw [h]; exact fun h => by cases h)
  have i2 := i.touch (a' := s.a) (w' := wsOf n k j m s.w) h (Within.refl _ _ _) (wsOf_length k j m s.w)
  obtain ⟨a', w', h1, h2, h3, h4⟩ := body_ok hc hn h0 i2.content hv h
  obtain ⟨h5, h6⟩ := hcode k j s.a (wsOf n k j m s.w) a' w' m hv.1 hv.2 i.content.la i2.content.lw (clean_snap hq i h)
    (fun x hx1 hx2 => wsOf_get hx1 hx2 hv i.content.lw) h1
  exact ⟨h5, a', w', h2, h3.1.trans (wsOf_length k j m s.w), h4, h6⟩

/-- A thread is through with its node and its stores have reached memory. -/
theorem rel_leave (hc : NContract leaf mrg n a0 Q) (hn : 16 ≤ n) (h0 : a0.length = n) (hq : Clean P Q a0) (hcode : CodeFor leaf mrg n src P prog) {t : St V} {s : PS V} (i : Inv n Q src a0 s)
    (r : Rel n src prog m1 t s) {c k j : Nat} (hpc : t.pc c = .run k j .done) (hb : t.buf c = []) :
    ∃ s', Inv n Q src a0 s' ∧ s'.st = Function.update s.st (k, j) .finished ∧ s'.next = s.next ∧ Valid k j ∧
      Rel n src prog m1 { t with completed := if k = 3 then t.completed + 1 else t.completed, pc := Function.update t.pc c .ready } s' := by
  have rc := r.run c k j _ hpc
  obtain ⟨m0, h1, h2⟩ := rc.node
  have hv := i.tree.valid k j (by rw [h1]; exact fun h => by cases h)
  obtain ⟨_, a', w', h3, h4, h5, h6⟩ := code_runs hc hn h0 hq hcode i h1
  have hi' := i.commit h1 h3 h4 h5
  refine ⟨_, hi', rfl, rfl, hv, ?_⟩
  have hpc' : ∀ d k' j' q, Function.update t.pc c .ready d = .run k' j' q → d ≠ c ∧ t.pc d = .run k' j' q := by
    intro d k' j' q h
    by_cases e : d = c
    · subst e; rw [Function.update_self] at h; cases h
    · rw [Function.update_of_ne e] at h; exact ⟨e, h⟩
  refine ⟨r.next, r.lvl, ?_, ?_, ?_, ?_, ?_, r.other⟩
  · show (if k = 3 then s.completed + 1 else s.completed) = if k = 3 then t.completed + 1 else t.completed
    rw [r.completed]
  · intro d k' j' q hd
    obtain ⟨e, hd⟩ := hpc' _ _ _ _ hd
    have rd := r.run d k' j' q hd
    obtain ⟨y, hy⟩ := rd.running
    have hne := r.ne_node hpc hd e
    refine rd.frame (fun _ _ => rfl) (Function.update_of_ne hne _ _) fun i' hi' => ?_
    refine h3.2 i' fun ho => own_disjoint i.tree h1 hy hne.symm (l := .arr i') ho hi'
  · intro d e k' j' p q h h'
    exact r.uniq d e k' j' _ _ (hpc' _ _ _ _ h).2 (hpc' _ _ _ _ h').2
  · intro d hd
    by_cases e : d = c
    · subst e; exact hb
    · refine r.quiet d fun k' j' q h => hd k' j' q ?_
      show Function.update t.pc c .ready d = _
      rw [Function.update_of_ne e]; exact h
  · intro i' hi' hno
    show a'[i']? = some (t.mem (.arr i'))
    by_cases ho : nodeLo n k j ≤ i' ∧ i' < nodeHi n k j
    · rw [h6 i' ho.1 ho.2, ← h2 (.arr i') ho, hb]; rfl
    · rw [h3.2 i' ho]
      refine r.rest i' hi' fun d k' j' q h => ?_
      by_cases e : d = c
      · subst e; rw [hpc] at h; cases h; exact ho
      · refine hno d k' j' q ?_
        show Function.update t.pc c .ready d = _
        rw [Function.update_of_ne e]; exact h

/-- Only the variables behind `lock` instructions change. -/
theorem rel_ctl {t : St V} {s s' : PS V} (r : Rel n src prog m1 t s) (ha : s'.a = s.a) (hst : ∀ k j x, s.st (k, j) = .running x → s'.st (k, j) = .running x) :
    Rel n src prog m1 { t with next := s'.next, lvl := s'.lvl, completed := s'.completed } s' := by
  refine ⟨rfl, rfl, rfl, fun d k j p h => ?_, r.uniq, r.quiet, fun i hi h => by rw [ha]; exact r.rest i hi h, r.other⟩
  have rd := r.run d k j p h
  obtain ⟨y, hy⟩ := rd.running
  exact rd.frame (fun _ _ => rfl) (by rw [hst k j y hy, hy]) fun i _ => by rw [ha]

/-- A thread begins a node. -/
theorem rel_enter (hc : NContract leaf mrg n a0 Q) (hn : 16 ≤ n) (h0 : a0.length = n) (hq : Clean P Q a0) (hcode : CodeFor leaf mrg n src P prog) {t : St V} {s : PS V} (i : Inv n Q src a0 s)
    (r : Rel n src prog m1 t s) {c k j : Nat} (hpc : ∀ k j p, t.pc c ≠ .run k j p)
    (hnew : s.st (k, j) = .running (match (if k = 0 then src else none) with | some v => seg v (nodeLo n k j) (nodeHi n k j) | none => seg s.a (nodeLo n k j) (nodeHi n k j)))
    (hfree : ∀ d p, t.pc d ≠ .run k j p) :
    Rel n src prog m1 { t with pc := Function.update t.pc c (.run k j (prog k j)) } s := by
  have hb := r.quiet c hpc
  have hv := i.tree.valid k j (by rw [hnew]; exact fun h => by cases h)
  have hhi := nodeHi_le (n := n) hv
  have hmine : ∀ x, nodeLo n k j ≤ x → x < nodeHi n k j → s.a[x]? = some (t.mem (.arr x)) := by
    intro x hx1 hx2
    refine r.rest x (by omega) fun d k' j' q hd ho => ?_
    obtain ⟨y, hy⟩ := (r.run d k' j' q hd).running
    refine own_disjoint i.tree hnew hy ?_ (l := .arr x) ⟨hx1, hx2⟩ ho
    intro e
    obtain ⟨rfl, rfl⟩ := Prod.mk.inj e
    exact hfree d q hd
  have hsnap : s.st (k, j) = .running (snapOf n src k j t.mem) := by
    rw [hnew]
    unfold snapOf
    cases hs : (if k = 0 then src else none) with
    | some v => rfl
    | none =>
      congr 1
      apply List.ext_getElem?
      intro x
      by_cases hx : x < nodeHi n k j - nodeLo n k j
      · rw [seg_get hx, hmine _ (by omega) (by omega), List.getElem?_map, List.getElem?_range' hx]
        simp
      · rw [List.getElem?_eq_none (by rw [seg_length (by rw [i.content.la]; exact hhi)]; omega), List.getElem?_eq_none (by simp; omega)]
  obtain ⟨hacc, _⟩ := code_runs hc hn h0 hq hcode i hsnap
  refine ⟨r.next, r.lvl, r.completed, ?_, ?_, ?_, ?_, r.other⟩
  · intro d k' j' q hd0
    have hd : Function.update t.pc c (.run k j (prog k j)) d = .run k' j' q := hd0
    clear hd0
    by_cases e : d = c
    · subst e
      rw [Function.update_self] at hd; cases hd
      show Running n src prog t.mem (t.buf d) s k j (prog k j)
      rw [hb]
      exact ⟨⟨t.mem, hsnap, fun _ _ => rfl⟩, hacc, by simp, fun i hi => hmine i hi.1 hi.2⟩
    · rw [Function.update_of_ne e] at hd
      exact r.run d k' j' q hd
  · intro d e k' j' p q h0' h1'
    have h : Function.update t.pc c (.run k j (prog k j)) d = .run k' j' p := h0'
    have h' : Function.update t.pc c (.run k j (prog k j)) e = .run k' j' q := h1'
    clear h0' h1'
    by_cases e1 : d = c
    · by_cases e2 : e = c
      · rw [e1, e2]
      · rw [Function.update_of_ne e2] at h'
        subst e1; rw [Function.update_self] at h; cases h
        exact absurd h' (hfree e q)
    · rw [Function.update_of_ne e1] at h
      by_cases e2 : e = c
      · subst e2; rw [Function.update_self] at h'; cases h'
        exact absurd h (hfree d p)
      · rw [Function.update_of_ne e2] at h'
        exact r.uniq d e k' j' p q h h'
  · intro d hd
    refine r.quiet d fun k' j' q h => ?_
    by_cases e : d = c
    · subst e; exact hpc _ _ _ h
    · exact hd k' j' q (by show Function.update t.pc c _ d = _; rw [Function.update_of_ne e]; exact h)
  · intro i' hi' hno
    refine r.rest i' hi' fun d k' j' q h => ?_
    by_cases e : d = c
    · subst e; exact absurd h (hpc _ _ _)
    · exact hno d k' j' q (by show Function.update t.pc c _ d = _; rw [Function.update_of_ne e]; exact h)

/-- What becomes of the nodes when a thread leaves node `(k, j)`. -/
def Leaves (s s' : PS V) (t : St V) (k j : Nat) : Prop :=
  s'.next = s.next ∧ Valid k j ∧
  ((k = 3 ∧ s'.st = Function.update s.st (k, j) .finished) ∨
   (k < 3 ∧ t.lvl k &&& buddy j = buddy j ∧ Valid (k + 1) (j / 2) ∧ s.st (k + 1, j / 2) = .idle ∧
     ∃ x, s'.st = Function.update (Function.update (Function.update s.st (k, j) .finished) (k, j) .flagged) (k + 1, j / 2) (.running x)) ∨
   (k < 3 ∧ t.lvl k &&& buddy j ≠ buddy j ∧ s'.st = Function.update (Function.update s.st (k, j) .finished) (k, j) .flagged))

/-- Setting the bit of a node and what follows. -/
theorem rel_sync (hc : NContract leaf mrg n a0 Q) (hn : 16 ≤ n) (h0 : a0.length = n) (hq : Clean P Q a0) (hcode : CodeFor leaf mrg n src P prog) {t : St V} {s : PS V} (i : Inv n Q src a0 s)
    (r : Rel n src prog m1 t s) {c k j : Nat} (hpc : t.pc c = .run k j .done) (hb : t.buf c = []) :
    ∃ s', Inv n Q src a0 s' ∧ Leaves s s' t k j ∧ Rel n src prog m1 (sync prog t c k j) s' := by
  obtain ⟨s', i', hst, hnx', hv, r'⟩ := rel_leave hc hn h0 hq hcode i r hpc hb
  have hfin : s'.st (k, j) = .finished := by rw [hst, Function.update_self]
  unfold sync
  by_cases hk : k = 3
  · rw [if_pos hk]
    rw [if_pos hk] at r'
    exact ⟨s', i', ⟨hnx', hv, Or.inl ⟨hk, hst⟩⟩, r'⟩
  · rw [if_neg hk]
    rw [if_neg hk] at r'
    have hk3 : k < 3 := by have := hv.1; omega
    have hl : s'.lvl = t.lvl := r'.lvl
    have hcm : s'.completed = t.completed := r'.completed
    have hnx : s'.next = t.next := r'.next
    have hnot : ∀ d p, Function.update t.pc c .ready d ≠ .run k j p := by
      intro d p h
      obtain ⟨x, hx⟩ := (r'.run d k j p h).running
      rw [hfin] at hx; cases hx
    by_cases hbd : t.lvl k &&& buddy j = buddy j
    · rw [if_pos hbd]
      have hbd' : s'.lvl k &&& buddy j = buddy j := by rw [hl]; exact hbd
      have hpar := i'.tree.parent_idle hk3 hv (by rw [hfin]; exact fun h => by cases h)
      have i2 := i'.goUp hk3 hfin hbd'
      refine ⟨_, i2, ⟨hnx', hv, Or.inr (Or.inl ⟨hk3, hbd, hv.half hk3, ?_, _, by rw [hst]⟩)⟩, ?_⟩
      · rw [hst, Function.update_of_ne (fun e => by have := (Prod.mk.inj e).1; omega)] at hpar
        exact hpar
      have r2 := rel_ctl (s' := { s' with
          lvl := Function.update s'.lvl k (s'.lvl k ||| 1#64 <<< j)
          st := Function.update (Function.update s'.st (k, j) .flagged) (k + 1, j / 2)
            (.running (seg s'.a (nodeLo n (k + 1) (j / 2)) (nodeHi n (k + 1) (j / 2)))) }) r' rfl (fun k' j' x hx => by
        show Function.update (Function.update s'.st (k, j) .flagged) (k + 1, j / 2) _ (k', j') = _
        rw [Function.update_of_ne (fun e => by rw [e, hpar] at hx; cases hx), Function.update_of_ne (fun e => by rw [e, hfin] at hx; cases hx)]
        exact hx)
      have r3 := rel_enter hc hn h0 hq hcode i2 r2 (c := c) (k := k + 1) (j := j / 2)
        (fun k' j' p h => by
          have h : Function.update t.pc c .ready c = .run k' j' p := h
          rw [Function.update_self] at h; cases h)
        (by simp)
        (fun d p h => by
          obtain ⟨x, hx⟩ := (r'.run d _ _ p h).running
          rw [hpar] at hx; cases hx)
      simp only [Function.update_idem, hl, hcm, hnx] at r3 ⊢
      exact r3
    · rw [if_neg hbd]
      have hbd' : ¬ s'.lvl k &&& buddy j = buddy j := by rw [hl]; exact hbd
      have i2 := i'.wait hk3 hfin hbd'
      refine ⟨_, i2, ⟨hnx', hv, Or.inr (Or.inr ⟨hk3, hbd, by rw [hst]⟩)⟩, ?_⟩
      have r2 := rel_ctl (s' := { s' with
          lvl := Function.update s'.lvl k (s'.lvl k ||| 1#64 <<< j)
          st := Function.update s'.st (k, j) .flagged
          completed := s'.completed + 1 }) r' rfl (fun k' j' x hx => by
        show Function.update s'.st (k, j) .flagged (k', j') = _
        rw [Function.update_of_ne (fun e => by rw [e, hfin] at hx; cases hx)]
        exact hx)
      simp only [hl, hcm, hnx] at r2 ⊢
      exact r2

/-- GetNextWorkIndex hands out a leaf. -/
theorem rel_claim (hc : NContract leaf mrg n a0 Q) (hn : 16 ≤ n) (h0 : a0.length = n) (hsrc : ∀ v, src = some v → v = a0) (hq : Clean P Q a0) (hcode : CodeFor leaf mrg n src P prog) {t : St V} {s : PS V}
    (i : Inv n Q src a0 s) (r : Rel n src prog m1 t s) {c : Nat} (hpc : t.pc c = .ready) (h8 : t.next < 8) :
    ∃ s', Inv n Q src a0 s' ∧ (s'.next = s.next + 1 ∧ s.st (0, t.next) = .idle ∧ ∃ x, s'.st = Function.update s.st (0, t.next) (.running x)) ∧
      Rel n src prog m1 { t with next := t.next + 1, pc := Function.update t.pc c (.run 0 t.next (prog 0 t.next)) } s' := by
  have hnx := r.next
  have i2 := i.claim hsrc (by rw [hnx]; exact h8)
  have hidle : s.st (0, s.next) = .idle := (i.tree.leafIdle s.next (by rw [hnx]; exact h8)).2 (Nat.le_refl _)
  refine ⟨_, i2, ⟨rfl, hnx ▸ hidle, _, by rw [← hnx]⟩, ?_⟩
  have r2 := rel_ctl (s' := { s with
      next := s.next + 1
      st := Function.update s.st (0, s.next) (.running (seg (src.getD s.a) (nodeLo n 0 s.next) (nodeHi n 0 s.next))) }) r rfl (fun k' j' x hx => by
    show Function.update s.st _ _ (k', j') = _
    rw [Function.update_of_ne (fun e => by rw [e, hidle] at hx; cases hx)]
    exact hx)
  have r3 := rel_enter hc hn h0 hq hcode i2 r2 (c := c) (k := 0) (j := s.next)
    (fun k' j' p h => by
      have h : t.pc c = .run k' j' p := h
      rw [hpc] at h; cases h)
    (by
      show Function.update s.st (0, s.next) _ (0, s.next) = _
      rw [Function.update_self]
      cases src <;> rfl)
    (fun d p h => by
      obtain ⟨x, hx⟩ := (r.run d _ _ p h).running
      rw [hidle] at hx; cases hx)
  have e1 := r.lvl
  have e2 := r.completed
  simp only [hnx, e1, e2] at r3 ⊢
  exact r3

/-- Every running node has its thread; only the last node stays finished; the caller is in the loop; who has left saw no segment left. -/
structure Live (t : St V) (s : PS V) : Prop where
  busy : ∀ k j x, s.st (k, j) = .running x → ∃ c p, t.pc c = .run k j p
  fin : ∀ k j, s.st (k, j) = .finished → k = 3
  zero : t.pc 0 ≠ .out
  left : ∀ c, t.pc c = .left → 8 ≤ t.next

/-- A thread that stays on its node, or outside the nodes, changes nothing. -/
theorem Live.move {t : St V} {s s' : PS V} (l : Live t s) {c : Nat} {x : PC V} {mem : Loc → V} {buf : Nat → List (Loc × V)} (hst : s'.st = s.st)
    (hrun : ∀ k j p, t.pc c = .run k j p → ∃ q, x = .run k j q) (hout : x ≠ .out) (hleft : x = .left → 8 ≤ t.next) :
    Live { t with mem := mem, buf := buf, pc := Function.update t.pc c x } s' := by
  refine ⟨fun k j y h => ?_, fun k j h => l.fin k j (by rw [← hst]; exact h), ?_, ?_⟩
  · rw [hst] at h
    obtain ⟨d, p, hd⟩ := l.busy k j y h
    by_cases e : d = c
    · subst e
      obtain ⟨q, hq⟩ := hrun k j p hd
      exact ⟨d, q, by show Function.update t.pc d x d = _; rw [Function.update_self, hq]⟩
    · exact ⟨d, p, by show Function.update t.pc c x d = _; rw [Function.update_of_ne e, hd]⟩
  · show Function.update t.pc c x 0 ≠ _
    by_cases e : 0 = c
    · rw [← e, Function.update_self]; exact hout
    · rw [Function.update_of_ne e]; exact l.zero
  · intro d hd
    have hd' : Function.update t.pc c x d = .left := hd
    by_cases e : d = c
    · subst e; rw [Function.update_self] at hd'; exact hleft hd'
    · rw [Function.update_of_ne e] at hd'; exact l.left d hd'

theorem Live.claim {t : St V} {s s' : PS V} (l : Live t s) {c : Nat} {x : List V} {p : Prog V} (hpc : ∀ k j p, t.pc c ≠ .run k j p)
    (hst : s'.st = Function.update s.st (0, t.next) (.running x)) :
    Live { t with next := t.next + 1, pc := Function.update t.pc c (.run 0 t.next p) } s' := by
  refine ⟨fun k j y h => ?_, fun k j h => ?_, ?_, ?_⟩
  · rw [hst] at h
    by_cases e : (k, j) = (0, t.next)
    · obtain ⟨rfl, rfl⟩ := Prod.mk.inj e
      exact ⟨c, p, Function.update_self ..⟩
    · rw [Function.update_of_ne e] at h
      obtain ⟨d, q, hd⟩ := l.busy k j y h
      have hne : d ≠ c := fun h => by subst h; exact hpc _ _ _ hd
      exact ⟨d, q, by show Function.update t.pc c _ d = _; rw [Function.update_of_ne hne, hd]⟩
  · rw [hst] at h
    by_cases e : (k, j) = (0, t.next)
    · rw [e, Function.update_self] at h; cases h
    · rw [Function.update_of_ne e] at h; exact l.fin k j h
  · show Function.update t.pc c _ 0 ≠ _
    by_cases e : 0 = c
    · rw [← e, Function.update_self]; exact fun h => by cases h
    · rw [Function.update_of_ne e]; exact l.zero
  · intro d hd
    have hd' : Function.update t.pc c _ d = .left := hd
    show 8 ≤ t.next + 1
    by_cases e : d = c
    · subst e; rw [Function.update_self] at hd'; cases hd'
    · rw [Function.update_of_ne e] at hd'; have := l.left d hd'; omega

theorem Live.sync {t : St V} {s s' : PS V} (l : Live t s) {c k j : Nat} (hu : ∀ d p, t.pc d = .run k j p → d = c) (hpc : ∃ p, t.pc c = .run k j p)
    (h : Leaves s s' t k j) : Live (sync prog t c k j) s' := by
  obtain ⟨_, hv, h⟩ := h
  have hoth : ∀ (x : PC V) {k' j' : Nat} {y : List V}, (k', j') ≠ (k, j) → s.st (k', j') = .running y → ∃ d q, Function.update t.pc c x d = .run k' j' q := by
    intro x k' j' y hne hy
    obtain ⟨d, q, hd⟩ := l.busy k' j' y hy
    have hdc : d ≠ c := by
      rintro rfl
      obtain ⟨p, hp⟩ := hpc
      rw [hp] at hd; cases hd; exact hne rfl
    exact ⟨d, q, by rw [Function.update_of_ne hdc, hd]⟩
  have hzero : ∀ x : PC V, x ≠ .out → Function.update t.pc c x 0 ≠ .out := by
    intro x hx
    by_cases e : 0 = c
    · rw [← e, Function.update_self]; exact hx
    · rw [Function.update_of_ne e]; exact l.zero
  have hleft : ∀ x : PC V, x ≠ .left → ∀ d, Function.update t.pc c x d = .left → 8 ≤ t.next := by
    intro x hx d hd
    by_cases e : d = c
    · subst e; rw [Function.update_self] at hd; exact absurd hd hx
    · rw [Function.update_of_ne e] at hd; exact l.left d hd
  unfold TsoSort.sync
  rcases h with ⟨hk, hst⟩ | ⟨hk, hb, hv', hidle, x, hst⟩ | ⟨hk, hb, hst⟩
  · rw [if_pos hk]
    refine ⟨fun k' j' y h => ?_, fun k' j' h => ?_, hzero _ (fun h => by cases h), hleft _ (fun h => by cases h)⟩
    · rw [hst] at h
      by_cases e : (k', j') = (k, j)
      · rw [e, Function.update_self] at h; cases h
      · rw [Function.update_of_ne e] at h; exact hoth _ e h
    · rw [hst] at h
      by_cases e : (k', j') = (k, j)
      · rw [(Prod.mk.inj e).1]; exact hk
      · rw [Function.update_of_ne e] at h; exact l.fin _ _ h
  · rw [if_neg (by omega), if_pos hb]
    refine ⟨fun k' j' y h => ?_, fun k' j' h => ?_, hzero _ (fun h => by cases h), hleft _ (fun h => by cases h)⟩
    · rw [hst] at h
      by_cases e2 : (k', j') = (k + 1, j / 2)
      · obtain ⟨rfl, rfl⟩ := Prod.mk.inj e2
        exact ⟨c, _, Function.update_self ..⟩
      · rw [Function.update_of_ne e2] at h
        by_cases e : (k', j') = (k, j)
        · rw [e, Function.update_self] at h; cases h
        · rw [Function.update_of_ne e, Function.update_of_ne e] at h; exact hoth _ e h
    · rw [hst] at h
      by_cases e2 : (k', j') = (k + 1, j / 2)
      · rw [e2, Function.update_self] at h; cases h
      · rw [Function.update_of_ne e2] at h
        by_cases e : (k', j') = (k, j)
        · rw [e, Function.update_self] at h; cases h
        · rw [Function.update_of_ne e, Function.update_of_ne e] at h; exact l.fin _ _ h
  · rw [if_neg (by omega), if_neg hb]
    refine ⟨fun k' j' y h => ?_, fun k' j' h => ?_, hzero _ (fun h => by cases h), hleft _ (fun h => by cases h)⟩
    · rw [hst] at h
      by_cases e : (k', j') = (k, j)
      · rw [e, Function.update_self] at h; cases h
      · rw [Function.update_of_ne e, Function.update_of_ne e] at h; exact hoth _ e h
    · rw [hst] at h
      by_cases e : (k', j') = (k, j)
      · rw [e, Function.update_self] at h; cases h
      · rw [Function.update_of_ne e, Function.update_of_ne e] at h; exact l.fin _ _ h

theorem leaves_progress {s s' : PS V} {t : St V} {k j : Nat} {x : List V} (hr : s.st (k, j) = .running x) (h : Leaves s s' t k j) : progress s < progress s' := by
  obtain ⟨hn, hv, h⟩ := h
  have h1 := ranks_update s.st .finished hv
  have h2 := ranks_update (Function.update s.st (k, j) .finished) .flagged hv
  rw [Function.update_self] at h2
  have r1 : ∀ y : List V, rank (NodeSt.running y) = 1 := fun _ => rfl
  have r2 : rank (NodeSt.finished (α := V)) = 2 := rfl
  have r3 : rank (NodeSt.flagged (α := V)) = 3 := rfl
  have r4 : rank (NodeSt.idle (α := V)) = 0 := rfl
  rw [hr] at h1
  unfold progress
  rw [hn]
  rcases h with ⟨hk, hst⟩ | ⟨hk, hb, hv', hidle, y, hst⟩ | ⟨hk, hb, hst⟩
  · rw [hst]; have := r1 x; omega
  · have h3 := ranks_update (Function.update (Function.update s.st (k, j) .finished) (k, j) .flagged) (.running y) hv'
    have hne : (k + 1, j / 2) ≠ (k, j) := fun e => by have := (Prod.mk.inj e).1; omega
    rw [Function.update_of_ne hne, Function.update_of_ne hne, hidle] at h3
    rw [hst]; have := r1 x; have := r1 y; omega
  · rw [hst]; have := r1 x; omega

theorem claim_progress {s s' : PS V} {t : St V} {x : List V} (hv : Valid 0 t.next) (hn : s'.next = s.next + 1) (hi : s.st (0, t.next) = .idle)
    (hst : s'.st = Function.update s.st (0, t.next) (.running x)) : progress s < progress s' := by
  have h1 := ranks_update s.st (.running x) hv
  rw [hi] at h1
  have r1 : rank (NodeSt.running x) = 1 := rfl
  have r4 : rank (NodeSt.idle (α := V)) = 0 := rfl
  unfold progress
  rw [hn, hst]; omega

/-- Every step keeps the correspondence. -/
theorem rel_step [DecidableEq V] (hc : NContract leaf mrg n a0 Q) (hn : 16 ≤ n) (h0 : a0.length = n) (hsrc : ∀ v, src = some v → v = a0) (hq : Clean P Q a0) (hcode : CodeFor leaf mrg n src P prog)
    {t : St V} {s : PS V} (i : Inv n Q src a0 s) (r : Rel n src prog m1 t s) (l : Live t s) (flag : Loc × V) (act : Act) :
    ∃ s', Inv n Q src a0 s' ∧ Rel n src prog m1 (step prog flag t act) s' ∧ Live (step prog flag t act) s' ∧ progress s ≤ progress s' := by
  have same : ∃ s', Inv n Q src a0 s' ∧ Rel n src prog m1 t s' ∧ Live t s' ∧ progress s ≤ progress s' := ⟨s, i, r, l, Nat.le_refl _⟩
  cases act with
  | drain c =>
    cases hb : t.buf c with
    | nil => rw [show step prog flag t (.drain c) = t by unfold step; simp only [hb]]; exact same
    | cons q b =>
      rw [step]; simp only [hb]
      exact ⟨s, i, rel_drain i.tree r hb, ⟨l.busy, l.fin, l.zero, l.left⟩, Nat.le_refl _⟩
  | go c =>
    rw [step]
    cases hpc : t.pc c with
    | out =>
      simp only
      split
      · exact ⟨s, i, rel_quiet r (by rw [hpc]; intro k j p h; cases h) (by intro k j p h; cases h),
          l.move rfl (by rw [hpc]; intro k j p h; cases h) (fun h => by cases h) (fun h => by cases h), Nat.le_refl _⟩
      · exact same
    | left => exact same
    | ready =>
      simp only
      split
      · exact same
      · split
        · next h8 =>
          obtain ⟨s', e1, ⟨e2, e3, x, e4⟩, e5⟩ := rel_claim hc hn h0 hsrc hq hcode i r hpc h8
          exact ⟨s', e1, e5, l.claim (by rw [hpc]; intro k j p h; cases h) e4,
            Nat.le_of_lt (claim_progress ⟨by omega, by simpa using h8⟩ e2 e3 e4)⟩
        · next h8 =>
          exact ⟨s, i, rel_quiet r (by rw [hpc]; intro k j p h; cases h) (by intro k j p h; cases h),
            l.move rfl (by rw [hpc]; intro k j p h; cases h) (fun h => by cases h) (fun _ => by omega), Nat.le_refl _⟩
    | run k j p =>
      cases p with
      | done =>
        simp only
        split
        · exact same
        · next h =>
          obtain ⟨s', e1, e2, e3⟩ := rel_sync hc hn h0 hq hcode i r hpc (by simpa using h)
          obtain ⟨x, hx⟩ := (r.run c k j _ hpc).running
          exact ⟨s', e1, e3, l.sync (fun d p hd => r.uniq d c k j p _ hd hpc) ⟨_, hpc⟩ e2, Nat.le_of_lt (leaves_progress hx e2)⟩
      | load a f =>
        exact ⟨s, i, rel_load r hpc, l.move rfl (by rw [hpc]; intro k' j' p h; cases h; exact ⟨_, rfl⟩) (fun h => by cases h) (fun h => by cases h), Nat.le_refl _⟩
      | store a v p =>
        have h1 := rel_store i r hpc
        have h2 := storeAt_st s a v
        refine ⟨_, h1.1, h1.2, l.move h2.1 (by rw [hpc]; intro k' j' p h; cases h; exact ⟨_, rfl⟩) (fun h => by cases h) (fun h => by cases h), ?_⟩
        unfold progress
        rw [h2.1, h2.2.1]

/-- Before the number of the work item is in memory. -/
structure Before (mem : Loc → V) (before : List (Loc × V)) (flag : Loc × V) (t : St V) : Prop where
  buf : ∃ done left, before ++ [flag] = done ++ left ∧ left ≠ [] ∧ t.buf = (fun c => if c = 0 then left else []) ∧ t.mem = load mem done
  pc : t.pc = fun c => if c = 0 then .ready else .out
  next : t.next = 0
  lvl : t.lvl = fun _ => 0
  completed : t.completed = 0

/-- All the caller's stores in memory, nobody at work. -/
theorem rel_init {m : Loc → V} {t : St V} (hm : t.mem = m) (hbuf : ∀ c, t.buf c = []) (hpc : ∀ c k j p, t.pc c ≠ .run k j p) (hn : t.next = 0)
    (hl : t.lvl = fun _ => 0) (hcm : t.completed = 0) (w : List V) :
    Rel n src prog m t (init ((List.range n).map fun i => m (.arr i)) w) := by
  subst hm
  refine ⟨hn.symm, hl.symm, hcm.symm, fun c k j p h => absurd h (hpc c k j p), fun c _ k j p _ h => absurd h (hpc c k j p), fun c _ => hbuf c, fun i hi _ => ?_, fun _ => rfl⟩
  show ((List.range n).map _)[i]? = _
  rw [List.getElem?_map, List.getElem?_range hi]; rfl

theorem load_load (b d : List (Loc × V)) : ∀ m : Loc → V, load (load m b) d = load m (b ++ d) := by
  induction b with
  | nil => intro m; rfl
  | cons p b ih => intro m; exact ih _

theorem not_published {mem : Loc → V} {before : List (Loc × V)} {flag : Loc × V} (hu : mem flag.1 ≠ flag.2 ∧ ∀ p ∈ before, p.1 ≠ flag.1)
    {done left : List (Loc × V)} (h : before ++ [flag] = done ++ left) (hl : left ≠ []) : load mem done flag.1 ≠ flag.2 := by
  rw [load_not_mem]
  · exact hu.1
  · intro q hq
    refine hu.2 q ?_
    obtain ⟨l', x, rfl⟩ : ∃ l' x, left = l' ++ [x] := ⟨left.dropLast, left.getLast hl, (List.dropLast_append_getLast hl).symm⟩
    rw [← List.append_assoc] at h
    rw [(List.append_inj' h rfl).1]
    exact List.mem_append.2 (Or.inl hq)

/-- The invariant of the whole run. -/
theorem exec_inv [DecidableEq V] (hc : NContract leaf mrg n a0 Q) (hn : 16 ≤ n) (h0 : a0.length = n) (hsrc : ∀ v, src = some v → v = a0) (hq : Clean P Q a0) (hcode : CodeFor leaf mrg n src P prog)
    {mem : Loc → V} {before : List (Loc × V)} {flag : Loc × V} (hu : mem flag.1 ≠ flag.2 ∧ ∀ p ∈ before, p.1 ≠ flag.1)
    (hin : src = none → (List.range n).map (fun i => load mem (before ++ [flag]) (.arr i)) = a0) (acts : List Act) :
    Before mem before flag (exec prog mem before flag acts) ∨
    ∃ s, Inv n Q src a0 s ∧ Rel n src prog (load mem (before ++ [flag])) (exec prog mem before flag acts) s ∧ Live (exec prog mem before flag acts) s := by
  suffices h : ∀ (acts : List Act) (t : St V), (Before mem before flag t ∨ ∃ s, Inv n Q src a0 s ∧ Rel n src prog (load mem (before ++ [flag])) t s ∧ Live t s) →
      (Before mem before flag (acts.foldl (step prog flag) t) ∨ ∃ s, Inv n Q src a0 s ∧ Rel n src prog (load mem (before ++ [flag])) (acts.foldl (step prog flag) t) s ∧
        Live (acts.foldl (step prog flag) t) s) by
    refine h acts _ (Or.inl ⟨⟨[], before ++ [flag], rfl, by simp, rfl, rfl⟩, rfl, rfl, rfl, rfl⟩)
  intro acts
  induction acts with
  | nil => intro t h; exact h
  | cons a acts ih =>
    intro t h
    refine ih _ ?_
    rcases h with hA | ⟨s, i, r, l⟩
    · obtain ⟨⟨done, left, e1, e2, e3, e4⟩, e5, e6, e7, e8⟩ := hA
      cases a with
      | drain c =>
        unfold step
        rw [e3]
        by_cases hc0 : c = 0
        · subst hc0
          simp only [if_true]
          cases left with
          | nil => exact absurd rfl e2
          | cons q l =>
            obtain ⟨a, v⟩ := q
            simp only
            have hm : (fun x => if x = a then v else t.mem x) = load mem (done ++ [(a, v)]) := by rw [load_append, e4]
            have hbf : Function.update (fun c => if c = 0 then (a, v) :: l else []) 0 l = fun c => if c = 0 then l else [] := by
              funext c
              by_cases hc1 : c = 0
              · subst hc1; simp
              · rw [Function.update_of_ne hc1]; simp [hc1]
            rw [hbf, hm]
            by_cases hl : l = []
            · subst hl
              refine Or.inr ⟨init ((List.range n).map fun i => load mem (before ++ [flag]) (.arr i)) (List.replicate (8 * chunk n) flag.2),
                inv_init _ _ (by simp) (by simp) hin, ?_, ⟨?_, ?_, ?_, ?_⟩⟩
              rotate_left
              · intro k j x h; cases h
              · intro k j h; cases h
              · show t.pc 0 ≠ _
                rw [e5]; simp
              · intro c h
                have h : t.pc c = .left := h
                rw [e5] at h
                by_cases hc1 : c = 0 <;> simp [hc1] at h
              refine rel_init (m := load mem (before ++ [flag])) ?_ ?_ ?_ ?_ ?_ ?_ _
              · show load mem (done ++ [(a, v)]) = _
                rw [e1]
              · intro c
                show (if c = 0 then ([] : List (Loc × V)) else []) = []
                split <;> rfl
              · intro c k j p h
                have h : t.pc c = .run k j p := h
                rw [e5] at h
                by_cases hc1 : c = 0 <;> simp [hc1] at h
              · exact e6
              · exact e7
              · exact e8
            · exact Or.inl ⟨⟨done ++ [(a, v)], l, by rw [e1]; simp, hl, rfl, rfl⟩, e5, e6, e7, e8⟩
        · simp only [if_neg hc0]
          exact Or.inl ⟨⟨done, left, e1, e2, e3, e4⟩, e5, e6, e7, e8⟩
      | go c =>
        unfold step
        rw [e5]
        by_cases hc0 : c = 0
        · subst hc0
          simp only [if_true]
          rw [if_pos (by rw [e3]; simpa using e2)]
          exact Or.inl ⟨⟨done, left, e1, e2, e3, e4⟩, e5, e6, e7, e8⟩
        · simp only [if_neg hc0]
          rw [if_neg]
          · exact Or.inl ⟨⟨done, left, e1, e2, e3, e4⟩, e5, e6, e7, e8⟩
          · rw [e3, e4]
            simp only [if_neg hc0]
            exact not_published hu e1 e2
    · obtain ⟨s', e1, e2, e3, _⟩ := rel_step hc hn h0 hsrc hq hcode i r l flag a
      exact Or.inr ⟨s', e1, e2, e3⟩

/-- When eight blocks are complete: no store is on its way, the array in memory satisfies the contract of the whole range. -/
theorem exec_done [DecidableEq V] (hc : NContract leaf mrg n a0 Q) (hn : 16 ≤ n) (h0 : a0.length = n) (hsrc : ∀ v, src = some v → v = a0) (hq : Clean P Q a0) (hcode : CodeFor leaf mrg n src P prog)
    {mem : Loc → V} {before : List (Loc × V)} {flag : Loc × V} (hu : mem flag.1 ≠ flag.2 ∧ ∀ p ∈ before, p.1 ≠ flag.1)
    (hin : src = none → (List.range n).map (fun i => load mem (before ++ [flag]) (.arr i)) = a0) (acts : List Act)
    (hdone : (exec prog mem before flag acts).completed = 8) :
    (∀ c, (exec prog mem before flag acts).buf c = []) ∧
    Q 3 0 ((List.range n).map fun i => (exec prog mem before flag acts).mem (.arr i)) ∧
    ∀ i, (exec prog mem before flag acts).mem (.other i) = load mem (before ++ [flag]) (.other i) := by
  have h := exec_inv hc hn h0 hsrc hq hcode hu hin acts
  generalize exec prog mem before flag acts = t at *
  rcases h with h | ⟨s, i, r, l⟩
  · rw [h.completed] at hdone; cases hdone
  have h8 : s.completed = 8 := by rw [r.completed]; exact hdone
  have hno : ∀ c k j p, t.pc c ≠ .run k j p := by
    intro c k j p hc'
    obtain ⟨x, hx⟩ := (r.run c k j p hc').running
    have hv := i.tree.valid k j (by rw [hx]; exact fun h => by cases h)
    have h1 := act_le_busy s.st hv
    have h2 := i.tree.cnt
    have h3 := i.tree.nx
    rw [hx] at h1
    have h4 : 1 ≤ act k (NodeSt.running x) := Nat.le_refl _
    omega
  refine ⟨fun c => r.quiet c (hno c), ?_, r.other⟩
  have hroot := i.root h8
  have e : s.a = (List.range n).map fun i => t.mem (.arr i) := by
    apply List.ext_getElem?
    intro x
    by_cases hx : x < n
    · rw [r.rest x hx fun c k j p h => absurd h (hno c k j p), List.getElem?_map, List.getElem?_range hx]; rfl
    · rw [List.getElem?_eq_none (by rw [i.content.la]; omega), List.getElem?_eq_none (by simp; omega)]
  rwa [e] at hroot

/-- A thread at work can get to the end of its node with an empty buffer. -/
theorem run_out [DecidableEq V] (hc : NContract leaf mrg n a0 Q) (hn : 16 ≤ n) (h0 : a0.length = n) (hsrc : ∀ v, src = some v → v = a0) (hq : Clean P Q a0) (hcode : CodeFor leaf mrg n src P prog)
    (flag : Loc × V) {c k j : Nat} (p : Prog V) : ∀ {t : St V} {s : PS V}, Inv n Q src a0 s → Rel n src prog m1 t s → Live t s → t.pc c = .run k j p →
    ∃ (acts : List Act) (s' : PS V), Inv n Q src a0 s' ∧ Rel n src prog m1 (acts.foldl (step prog flag) t) s' ∧ Live (acts.foldl (step prog flag) t) s' ∧ progress s ≤ progress s' ∧
      (acts.foldl (step prog flag) t).pc c = .run k j .done ∧ (acts.foldl (step prog flag) t).buf c = [] := by
  induction p with
  | done =>
    intro t s i r l hpc
    generalize hm : (t.buf c).length = m
    induction m generalizing t s with
    | zero => exact ⟨[], s, i, r, l, Nat.le_refl _, hpc, List.eq_nil_of_length_eq_zero hm⟩
    | succ m ih =>
      cases hb : t.buf c with
      | nil => rw [hb] at hm; cases hm
      | cons q b =>
        obtain ⟨s1, i1, r1, l1, p1⟩ := rel_step hc hn h0 hsrc hq hcode i r l flag (.drain c)
        have e : step prog flag t (.drain c) = { t with mem := fun x => if x = q.1 then q.2 else t.mem x, buf := Function.update t.buf c b } := by
          rw [step]; simp only [hb]
        obtain ⟨acts, s', h1, h2, h3, h4, h5, h6⟩ := ih i1 r1 l1 (by rw [e]; exact hpc) (by
          rw [e]
          show (Function.update t.buf c b c).length = m
          rw [Function.update_self]
          rw [hb] at hm
          simpa using hm)
        exact ⟨.drain c :: acts, s', h1, h2, h3, Nat.le_trans p1 h4, h5, h6⟩
  | load a f ih =>
    intro t s i r l hpc
    obtain ⟨s1, i1, r1, l1, p1⟩ := rel_step hc hn h0 hsrc hq hcode i r l flag (.go c)
    have e : step prog flag t (.go c) = { t with pc := Function.update t.pc c (.run k j (f (load t.mem (t.buf c) a))) } := by
      rw [step]; simp only [hpc]
    obtain ⟨acts, s', h1, h2, h3, h4, h5, h6⟩ := ih _ i1 r1 l1 (by rw [e]; exact Function.update_self ..)
    exact ⟨.go c :: acts, s', h1, h2, h3, Nat.le_trans p1 h4, h5, h6⟩
  | store a v p ih =>
    intro t s i r l hpc
    obtain ⟨s1, i1, r1, l1, p1⟩ := rel_step hc hn h0 hsrc hq hcode i r l flag (.go c)
    have e : step prog flag t (.go c) = { t with buf := Function.update t.buf c (t.buf c ++ [(a, v)]), pc := Function.update t.pc c (.run k j p) } := by
      rw [step]; simp only [hpc]
    obtain ⟨acts, s', h1, h2, h3, h4, h5, h6⟩ := ih i1 r1 l1 (by rw [e]; exact Function.update_self ..)
    exact ⟨.go c :: acts, s', h1, h2, h3, Nat.le_trans p1 h4, h5, h6⟩

/-- From every state the sort can be brought to its end. -/
theorem can_finish [DecidableEq V] (hc : NContract leaf mrg n a0 Q) (hn : 16 ≤ n) (h0 : a0.length = n) (hsrc : ∀ v, src = some v → v = a0) (hq : Clean P Q a0) (hcode : CodeFor leaf mrg n src P prog)
    (flag : Loc × V) {t : St V} {s : PS V} (i : Inv n Q src a0 s) (r : Rel n src prog m1 t s) (l : Live t s) :
    ∃ acts : List Act, (acts.foldl (step prog flag) t).completed = 8 := by
  generalize hm : 53 - progress s = m
  induction m using Nat.strongRecOn generalizing s t with
  | _ m ih =>
    by_cases h8 : t.completed = 8
    · exact ⟨[], h8⟩
    by_cases hrun : ∃ c k j p, t.pc c = .run k j p
    · obtain ⟨c, k, j, p, hpc⟩ := hrun
      obtain ⟨acts, s1, i1, r1, l1, p1, hpc1, hb1⟩ := run_out hc hn h0 hsrc hq hcode flag p i r l hpc
      generalize ht : acts.foldl (step prog flag) t = t1 at *
      obtain ⟨s2, i2, e2, r2⟩ := rel_sync hc hn h0 hq hcode i1 r1 hpc1 hb1
      obtain ⟨x, hx⟩ := (r1.run c k j _ hpc1).running
      have p2 := leaves_progress hx e2
      have l2 : Live (sync prog t1 c k j) s2 := l1.sync (fun d p hd => r1.uniq d c k j p _ hd hpc1) ⟨_, hpc1⟩ e2
      have hle := progress_le i2.tree
      obtain ⟨acts2, h2⟩ := ih (53 - progress s2) (by omega) i2 r2 l2 rfl
      refine ⟨acts ++ .go c :: acts2, ?_⟩
      rw [List.foldl_append, ht, List.foldl_cons]
      have e : step prog flag t1 (.go c) = sync prog t1 c k j := by
        rw [step]; simp only [hpc1]
        rw [if_neg (by rw [hb1]; simp)]
      rw [e]; exact h2
    · have hno : ∀ k j x, s.st (k, j) ≠ .running x := fun k j x hx => by
        obtain ⟨c, p, hp⟩ := l.busy k j x hx
        exact hrun ⟨c, k, j, p, hp⟩
      have hb : busy s.st = 0 := by
        unfold busy
        refine Finset.sum_eq_zero fun q _ => ?_
        obtain ⟨k, j⟩ := q
        show act k (s.st (k, j)) = 0
        cases hs : s.st (k, j) with
        | idle => rfl
        | flagged => rfl
        | running x => exact absurd hs (hno k j x)
        | finished => rw [l.fin k j hs]; rfl
      have h1 := i.tree.cnt
      have h2 := i.tree.nx
      have h3 := r.completed
      have h4 := r.next
      have hlt : t.next < 8 := by omega
      have hpc0 : t.pc 0 = .ready := by
        cases hp : t.pc 0 with
        | out => exact absurd hp l.zero
        | ready => rfl
        | left => have := l.left 0 hp; omega
        | run k j p => exact absurd ⟨0, k, j, p, hp⟩ hrun
      have hbuf := r.quiet 0 (by rw [hpc0]; intro k j p h; cases h)
      obtain ⟨s', e1, ⟨e2, e3, x, e4⟩, e5⟩ := rel_claim hc hn h0 hsrc hq hcode i r hpc0 hlt
      have l2 := l.claim (c := 0) (p := prog 0 t.next) (by rw [hpc0]; intro k j p h; cases h) e4
      have p2 := claim_progress ⟨by omega, by simpa using hlt⟩ e2 e3 e4
      have hle := progress_le e1.tree
      obtain ⟨acts2, h2⟩ := ih (53 - progress s') (by omega) e1 e5 l2 rfl
      refine ⟨.go 0 :: acts2, ?_⟩
      rw [List.foldl_cons]
      have e : step prog flag t (.go 0) = { t with next := t.next + 1, pc := Function.update t.pc 0 (.run 0 t.next (prog 0 t.next)) } := by
        rw [step]; simp only [hpc0]
        rw [if_neg (by rw [hbuf]; simp), if_pos hlt]
      rw [e]; exact h2

/-- Every run, however far it has got, can be continued until eight blocks are complete. -/
theorem exec_can_finish [DecidableEq V] (hc : NContract leaf mrg n a0 Q) (hn : 16 ≤ n) (h0 : a0.length = n) (hsrc : ∀ v, src = some v → v = a0) (hq : Clean P Q a0) (hcode : CodeFor leaf mrg n src P prog)
    {mem : Loc → V} {before : List (Loc × V)} {flag : Loc × V} (hu : mem flag.1 ≠ flag.2 ∧ ∀ p ∈ before, p.1 ≠ flag.1)
    (hin : src = none → (List.range n).map (fun i => load mem (before ++ [flag]) (.arr i)) = a0) (acts : List Act) :
    ∃ more, (exec prog mem before flag (acts ++ more)).completed = 8 := by
  have key : ∀ m : Nat, ∀ acts : List Act, ((exec prog mem before flag acts).buf 0).length ≤ m → ∃ more, (exec prog mem before flag (acts ++ more)).completed = 8 := by
    intro m
    induction m with
    | zero =>
      intro acts hm
      have h := exec_inv hc hn h0 hsrc hq hcode hu hin acts
      rcases h with h | ⟨s, i, r, l⟩
      · obtain ⟨done, left, _, h2, h3, _⟩ := h.buf
        rw [h3] at hm
        exact absurd (List.eq_nil_of_length_eq_zero (Nat.le_zero.1 hm)) h2
      · obtain ⟨more, h⟩ := can_finish hc hn h0 hsrc hq hcode flag i r l
        exact ⟨more, by rw [exec, List.foldl_append]; exact h⟩
    | succ m ih =>
      intro acts hm
      have h := exec_inv hc hn h0 hsrc hq hcode hu hin acts
      rcases h with h | ⟨s, i, r, l⟩
      · obtain ⟨done, left, _, h2, h3, _⟩ := h.buf
        cases left with
        | nil => exact absurd rfl h2
        | cons q b =>
          have hb : (exec prog mem before flag acts).buf 0 = q :: b := by rw [h3]; simp
          obtain ⟨more, h⟩ := ih (acts ++ [.drain 0]) (by
            rw [exec, List.foldl_append]
            show ((step prog flag (exec prog mem before flag acts) (.drain 0)).buf 0).length ≤ m
            rw [step]
            simp only [hb, Function.update_self]
            rw [hb] at hm
            simpa using hm)
          exact ⟨.drain 0 :: more, by rwa [List.append_assoc] at h⟩
      · obtain ⟨more, h⟩ := can_finish hc hn h0 hsrc hq hcode flag i r l
        exact ⟨more, by rw [exec, List.foldl_append]; exact h⟩
  exact key _ acts (Nat.le_refl _)

end
end Pnumpy.TsoSort
