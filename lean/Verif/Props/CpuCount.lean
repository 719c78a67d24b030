import Verif.Model.CpuCount
import Verif.Spec.CpuCount
import Mathlib.Data.List.Dedup
import Mathlib.Data.List.Perm.Basic
import Mathlib.Algebra.BigOperators.Group.List.Basic
/-
C82: cpu_count_linux.
-/
namespace Pnumpy.Props
open Pnumpy.Cpu Pnumpy.Spec.Cpu

/-! ### /sys -/

theorem distinct_eq (l : List (List Char)) : distinct l = l.dedup := by
  induction l with
  | nil => rfl
  | cons x xs ih =>
    unfold distinct
    by_cases h : x ∈ xs
    · rw [if_pos h, List.dedup_cons_of_mem h, ih]
    · rw [if_neg h, List.dedup_cons_of_notMem h, ih]

theorem dedup_length_map {β γ : Type} [DecidableEq β] [DecidableEq γ] (f : Nat → β) (g : Nat → γ) (ids : List Nat)
    (h : ∀ i ∈ ids, ∀ j ∈ ids, (f i = f j ↔ g i = g j)) : (ids.map f).dedup.length = (ids.map g).dedup.length := by
  induction ids with
  | nil => rfl
  | cons x xs ih =>
    have ih := ih fun i hi j hj => h i (List.mem_cons_of_mem _ hi) j (List.mem_cons_of_mem _ hj)
    have hm : f x ∈ xs.map f ↔ g x ∈ xs.map g := by
      simp only [List.mem_map]
      constructor
      · rintro ⟨j, hj, e⟩; exact ⟨j, hj, (h j (List.mem_cons_of_mem _ hj) x List.mem_cons_self).1 e⟩
      · rintro ⟨j, hj, e⟩; exact ⟨j, hj, (h j (List.mem_cons_of_mem _ hj) x List.mem_cons_self).2 e⟩
    by_cases hx : f x ∈ xs.map f
    · rw [List.map_cons, List.map_cons, List.dedup_cons_of_mem hx, List.dedup_cons_of_mem (hm.1 hx), ih]
    · rw [List.map_cons, List.map_cons, List.dedup_cons_of_notMem hx, List.dedup_cons_of_notMem (fun h => hx (hm.2 h)), List.length_cons, List.length_cons, ih]

/-- C82 (physical cores from /sys): for every set `ids` of processors and every assignment of processors to cores, the result is the number of distinct cores.
`fmt` is how the kernel writes a list of processors (any way in which different lists stay different). -/
theorem C82_topology (int : List Char → Option Int) {κ : Type} [DecidableEq κ] (ids : List Nat) (hne : ids ≠ []) (core : Nat → κ)
    (fmt : List Nat → List Char) (hfmt : ∀ i ∈ ids, ∀ j ∈ ids, strip (fmt (ids.filter fun k => core k = core i)) = strip (fmt (ids.filter fun k => core k = core j)) →
      ids.filter (fun k => core k = core i) = ids.filter fun k => core k = core j) (siblings : List (List Char)) (cpuinfo : Option (List (List Char)))
    (sysconf : Option Nat) :
    physical int { coreLists := ids.map fun i => fmt (ids.filter fun j => core j = core i), siblingLists := siblings, cpuinfo, sysconf } =
      .ok (some ((ids.map core).dedup.length : Int)) := by
  have hlen : (distinct ((ids.map fun i => fmt (ids.filter fun j => core j = core i)).map strip)).length = (ids.map core).dedup.length := by
    rw [distinct_eq, List.map_map]
    refine dedup_length_map _ core ids fun i hi j hj => ?_
    constructor
    · intro e
      have e2 := hfmt i hi j hj e
      have : i ∈ ids.filter fun k => core k = core j := by rw [← e2]; simp [hi]
      simpa using (List.mem_filter.1 this).2
    · intro e; simp only [Function.comp_apply, e]
  have hpos : (ids.map core).dedup.length ≠ 0 := by
    cases ids with
    | nil => exact absurd rfl hne
    | cons x xs =>
      intro h
      have h2 := List.eq_nil_of_length_eq_zero h
      have h3 : core x ∈ ((x :: xs).map core).dedup := by rw [List.mem_dedup]; simp
      rw [h2] at h3; cases h3
  unfold physical
  have hc : (ids.map fun i => fmt (ids.filter fun j => core j = core i)) ≠ [] := by simpa using hne
  simp only [if_pos hc]
  rw [if_pos (by rw [hlen]; exact hpos), hlen]

/-- Non-vacuity: four processors on two cores, lists written with commas. -/
example : ∀ i ∈ [0, 1, 2, 3], ∀ j ∈ [0, 1, 2, 3],
    strip (([0, 1, 2, 3].filter fun k => k / 2 = i / 2).flatMap (fun k => [Char.ofNat (k + 48), ',']) ++ ['\n']) =
      strip (([0, 1, 2, 3].filter fun k => k / 2 = j / 2).flatMap (fun k => [Char.ofNat (k + 48), ',']) ++ ['\n']) →
    [0, 1, 2, 3].filter (fun k => k / 2 = i / 2) = [0, 1, 2, 3].filter fun k => k / 2 = j / 2 := by decide

example : physical (fun _ => none) { coreLists := ["0-1\n".toList, "0-1\n".toList, "2-3\n".toList, "2-3\n".toList], siblingLists := [], cpuinfo := none, sysconf := none } = .ok (some 2) := by decide

/-! ### /proc/cpuinfo -/

theorem get_set {κ : Type} [DecidableEq κ] (d : Dict κ) (k k' : κ) (v : Int) : (d.set k v).get k' = if k' = k then some v else d.get k' := by
  unfold Dict.set Dict.get
  by_cases h : k = k'
  · subst h; simp
  · rw [List.find?_cons_of_neg (by simpa using h), if_neg (fun e => h e.symm)]
    congr 1
    induction d with
    | nil => rfl
    | cons p d ih =>
      by_cases hp : p.1 = k
      · rw [List.filter_cons_of_neg (by simpa using hp), ih, List.find?_cons_of_neg (by simp; intro e; exact h (hp.symm.trans e))]
      · rw [List.filter_cons_of_pos (by simpa using hp)]
        by_cases hq : p.1 = k'
        · rw [List.find?_cons_of_pos (by simpa using hq), List.find?_cons_of_pos (by simpa using hq)]
        · rw [List.find?_cons_of_neg (by simpa using hq), List.find?_cons_of_neg (by simpa using hq), ih]

theorem cpuLines_append (int : List Char → Option Int) (a b : List (List Char)) :
    ∀ st, cpuLines int st (a ++ b) = match cpuLines int st a with | .error e => .error e | .ok st' => cpuLines int st' b := by
  induction a with
  | nil => intro st; rfl
  | cons x xs ih =>
    intro st
    rw [List.cons_append, cpuLines, cpuLines]
    cases cpuLine int st x with
    | error e => rfl
    | ok st' => exact ih st'

/-- How numbers are written and read: digits, read back by `int` also with a blank in front. -/
structure Numbers (dec : Nat → List Char) (int : List Char → Option Int) : Prop where
  digits : ∀ n, ∀ c ∈ dec n, '0' ≤ c ∧ c ≤ '9'
  nonempty : ∀ n, dec n ≠ []
  read : ∀ n : Nat, int (' ' :: dec n) = some (n : Int)

/-- A line that is neither blank nor one of the two interesting ones. -/
def Uninteresting (t : List Char) : Prop :=
  lower (strip t) ≠ [] ∧ PHYS.isPrefixOf (lower (strip t)) = false ∧ CORES.isPrefixOf (lower (strip t)) = false

/-- Every `other` line of a section is uninteresting. -/
def WellFormed (secs : List (List Entry)) : Prop := ∀ s ∈ secs, ∀ t, Entry.other t ∈ s → Uninteresting t

theorem digit_facts {c : Char} (h : '0' ≤ c ∧ c ≤ '9') : isSpace c = false ∧ lower1 c = c := by
  have h1 : 48 ≤ c.toNat := h.1
  have h2 : c.toNat ≤ 57 := h.2
  constructor
  · unfold isSpace
    have : ∀ d : Char, d.toNat < 48 → c ≠ d := fun d hd e => by subst e; omega
    simp [this ' ' (by decide), this '\t' (by decide), this '\n' (by decide), this '\r' (by decide), this '\x0b' (by decide), this '\x0c' (by decide)]
  · unfold lower1
    rw [if_neg]
    rintro ⟨h3, _⟩
    have : 65 ≤ c.toNat := h3
    omega

theorem strip_line {dec : Nat → List Char} {int : List Char → Option Int} (hN : Numbers dec int) (c : Char) (pre : List Char) (hc : isSpace c = false) (n : Nat) :
    strip (c :: pre ++ dec n ++ ['\n']) = c :: pre ++ dec n := by
  unfold strip
  have h1 : (c :: pre ++ dec n ++ ['\n']).dropWhile isSpace = c :: pre ++ dec n ++ ['\n'] := by
    rw [List.cons_append, List.cons_append, List.dropWhile_cons_of_neg (by simp [hc])]
  rw [h1]
  obtain ⟨l, z, hz⟩ : ∃ l z, dec n = l ++ [z] := ⟨(dec n).dropLast, (dec n).getLast (hN.nonempty n), (List.dropLast_append_getLast _).symm⟩
  have hzs : isSpace z = false := (digit_facts (hN.digits n z (by rw [hz]; simp))).1
  rw [hz]
  simp only [List.reverse_append, List.reverse_cons, List.reverse_nil, List.nil_append, List.cons_append]
  rw [List.dropWhile_cons_of_pos (by decide), List.dropWhile_cons_of_neg (by simp [hzs])]
  simp

theorem lower_digits {dec : Nat → List Char} {int : List Char → Option Int} (hN : Numbers dec int) (n : Nat) : lower (dec n) = dec n := by
  unfold lower
  have : ∀ l : List Char, (∀ c ∈ l, '0' ≤ c ∧ c ≤ '9') → l.map lower1 = l := by
    intro l
    induction l with
    | nil => intro _; rfl
    | cons c l ih => intro h; rw [List.map_cons, (digit_facts (h c List.mem_cons_self)).2, ih fun d hd => h d (List.mem_cons_of_mem _ hd)]
  exact this _ (hN.digits n)

theorem line_phys {dec : Nat → List Char} {int : List Char → Option Int} (hN : Numbers dec int) (st : Dict Int × Dict (List Char)) (n : Nat) :
    cpuLine int st ((Entry.phys n).text dec) = .ok (st.1, st.2.set PHYS n) := by
  have e : lower (strip ((Entry.phys n).text dec)) = 'p' :: "hysical id\t: ".toList ++ dec n := by
    show lower (strip ('p' :: "hysical id\t: ".toList ++ dec n ++ ['\n'])) = _
    rw [strip_line hN _ _ (by decide)]
    rw [lower, List.map_append, show (dec n).map lower1 = dec n from lower_digits hN n]
    congr 1
  unfold cpuLine
  simp only [e]
  rw [if_neg (by simp), if_pos (by rfl)]
  have hs : split ('p' :: "hysical id\t: ".toList ++ dec n) = some (PHYS, ' ' :: dec n) := rfl
  rw [hs]
  simp only [hN.read]

theorem line_cores {dec : Nat → List Char} {int : List Char → Option Int} (hN : Numbers dec int) (st : Dict Int × Dict (List Char)) (n : Nat) :
    cpuLine int st ((Entry.cores n).text dec) = .ok (st.1, st.2.set CORES n) := by
  have e : lower (strip ((Entry.cores n).text dec)) = 'c' :: "pu cores\t: ".toList ++ dec n := by
    show lower (strip ('c' :: "pu cores\t: ".toList ++ dec n ++ ['\n'])) = _
    rw [strip_line hN _ _ (by decide)]
    rw [lower, List.map_append, show (dec n).map lower1 = dec n from lower_digits hN n]
    congr 1
  unfold cpuLine
  simp only [e]
  rw [if_neg (by simp), if_pos (by rfl)]
  have hs : split ('c' :: "pu cores\t: ".toList ++ dec n) = some (CORES, ' ' :: dec n) := rfl
  rw [hs]
  simp only [hN.read]

theorem line_other {int : List Char → Option Int} (st : Dict Int × Dict (List Char)) {t : List Char} (h : Uninteresting t) : cpuLine int st t = .ok st := by
  unfold cpuLine
  simp only
  rw [if_neg h.1, h.2.1, h.2.2, Bool.or_false, if_neg (by simp)]

theorem physOf_cons (e : Entry) (es : List Entry) :
    Entry.physOf (e :: es) = match Entry.physOf es with | some n => some n | none => match e with | .phys n => some n | _ => none := rfl

theorem coresOf_cons (e : Entry) (es : List Entry) :
    Entry.coresOf (e :: es) = match Entry.coresOf es with | some n => some n | none => match e with | .cores n => some n | _ => none := rfl

theorem section_lines {dec : Nat → List Char} {int : List Char → Option Int} (hN : Numbers dec int) :
    ∀ (s : List Entry), (∀ t, Entry.other t ∈ s → Uninteresting t) → ∀ (m : Dict Int) (d : Dict (List Char)),
      ∃ d', cpuLines int (m, d) (s.map (Entry.text dec)) = .ok (m, d') ∧
        d'.get PHYS = (match Entry.physOf s with | some n => some (n : Int) | none => d.get PHYS) ∧
        d'.get CORES = (match Entry.coresOf s with | some n => some (n : Int) | none => d.get CORES) := by
  have hne : PHYS ≠ CORES := by decide
  intro s
  induction s with
  | nil => intro _ m d; exact ⟨d, rfl, rfl, rfl⟩
  | cons e es ih =>
    intro h m d
    have ih := ih fun t ht => h t (List.mem_cons_of_mem _ ht)
    rw [List.map_cons]
    cases e with
    | other t =>
      obtain ⟨d', h1, h2, h3⟩ := ih m d
      refine ⟨d', ?_, ?_, ?_⟩
      · rw [cpuLines, show Entry.text dec (.other t) = t from rfl, line_other _ (h t List.mem_cons_self)]; exact h1
      · rw [h2, physOf_cons]; cases Entry.physOf es <;> rfl
      · rw [h3, coresOf_cons]; cases Entry.coresOf es <;> rfl
    | phys n =>
      obtain ⟨d', h1, h2, h3⟩ := ih m (d.set PHYS n)
      refine ⟨d', ?_, ?_, ?_⟩
      · rw [cpuLines, line_phys hN]; exact h1
      · rw [h2, physOf_cons, get_set, if_pos rfl]; cases Entry.physOf es <;> rfl
      · rw [h3, coresOf_cons, get_set, if_neg (Ne.symm hne)]; cases Entry.coresOf es <;> rfl
    | cores n =>
      obtain ⟨d', h1, h2, h3⟩ := ih m (d.set CORES n)
      refine ⟨d', ?_, ?_, ?_⟩
      · rw [cpuLines, line_cores hN]; exact h1
      · rw [h2, physOf_cons, get_set, if_neg hne]; cases Entry.physOf es <;> rfl
      · rw [h3, coresOf_cons, get_set, if_pos rfl]; cases Entry.coresOf es <;> rfl

/-- The packages named in the file: the `physical id` of every section that also has `cpu cores`. -/
def packages (secs : List (List Entry)) : List Nat :=
  secs.filterMap fun s => if (Entry.coresOf s).isSome then Entry.physOf s else none

theorem sections_lines {dec : Nat → List Char} {int : List Char → Option Int} (hN : Numbers dec int) (C : Nat → Nat) :
    ∀ (secs : List (List Entry)), WellFormed secs →
      (∀ s ∈ secs, ∀ p c, Entry.physOf s = some p → Entry.coresOf s = some c → c = C p) → ∀ (seen : List Nat), seen.Nodup →
      ∃ seen' : List Nat, seen'.Nodup ∧ (∀ p, p ∈ seen' ↔ p ∈ seen ∨ p ∈ packages secs) ∧
        cpuLines int (seen.map fun (p : Nat) => ((p : Int), (C p : Int)), []) (render dec secs) = .ok (seen'.map fun (p : Nat) => ((p : Int), (C p : Int)), []) := by
  intro secs
  induction secs with
  | nil => intro _ _ seen hs; exact ⟨seen, hs, by simp [packages], rfl⟩
  | cons s ss ih =>
    intro hw hC seen hs
    have ih := ih (fun s' h => hw s' (List.mem_cons_of_mem _ h)) (fun s' h => hC s' (List.mem_cons_of_mem _ h))
    obtain ⟨d', h1, h2, h3⟩ := section_lines hN s (hw s List.mem_cons_self) (seen.map fun (p : Nat) => ((p : Int), (C p : Int))) []
    have hr : render dec (s :: ss) = s.map (Entry.text dec) ++ ([['\n']] ++ render dec ss) := by
      simp [render]
    have hnone : ∀ k, Dict.get ([] : Dict (List Char)) k = none := fun k => rfl
    rw [hnone] at h2 h3
    rw [hr, cpuLines_append, h1]
    simp only
    rw [cpuLines_append]
    have hblank : lower (strip ['\n']) = [] := by decide
    have hstep : ∀ st : Dict Int × Dict (List Char), cpuLines int st [['\n']] = match st.2.get PHYS, st.2.get CORES with
        | some p, some c => .ok (st.1.set p c, [])
        | _, _ => .ok (st.1, []) := by
      intro st
      rw [cpuLines, cpuLine]
      simp only [hblank, if_true]
      cases st.2.get PHYS <;> cases st.2.get CORES <;> rfl
    rw [hstep]
    simp only [h2, h3]
    cases hp : Entry.physOf s with
    | none =>
      obtain ⟨seen', g1, g2, g3⟩ := ih seen hs
      refine ⟨seen', g1, fun p => ?_, ?_⟩
      · rw [g2]; simp [packages, hp]
      · simpa using g3
    | some p =>
      cases hc : Entry.coresOf s with
      | none =>
        obtain ⟨seen', g1, g2, g3⟩ := ih seen hs
        refine ⟨seen', g1, fun p => ?_, ?_⟩
        · rw [g2]; simp [packages, hc]
        · simpa using g3
      | some c =>
        have hcp := hC s List.mem_cons_self p c hp hc
        subst hcp
        have hset : Dict.set (seen.map fun (q : Nat) => ((q : Int), (C q : Int))) (p : Int) (C p : Int) =
            (p :: seen.filter fun q => q ≠ p).map fun (q : Nat) => ((q : Int), (C q : Int)) := by
          unfold Dict.set
          rw [List.map_cons]
          congr 1
          rw [List.filter_map]
          exact congrArg (List.map _) (List.filter_congr fun q _ => by simp only [Function.comp_apply, ne_eq, decide_not, Bool.not_eq_eq_eq_not, Bool.not_not, decide_eq_decide]; exact Int.ofNat_inj)
        obtain ⟨seen', g1, g2, g3⟩ := ih (p :: seen.filter fun q => q ≠ p) (List.nodup_cons.2 ⟨by simp, hs.filter _⟩)
        refine ⟨seen', g1, fun q => ?_, ?_⟩
        · rw [g2]
          have hpk : packages (s :: ss) = p :: packages ss := by simp [packages, hp, hc]
          rw [hpk]
          simp only [List.mem_cons, List.mem_filter, decide_eq_true_eq, ne_eq, decide_not, Bool.not_eq_true', decide_eq_false_iff_not]
          by_cases hq : q = p <;> simp [hq]
        · simp only [hset]
          exact g3

/-- C82 (physical cores from /proc/cpuinfo, used when /sys has no topology): for every file of complete sections, every number of
processors and packages (`C p`: the number of cores of package `p`, the same in all its sections), the result is the number of cores of all packages,
each package counted once; None if that is 0. -/
theorem C82_cpuinfo_partial (dec : Nat → List Char) (int : List Char → Option Int) (hN : Numbers dec int) (C : Nat → Nat) (secs : List (List Entry))
    (hw : WellFormed secs) (hC : ∀ s ∈ secs, ∀ p c, Entry.physOf s = some p → Entry.coresOf s = some c → c = C p) (sysconf : Option Nat) :
    physical int { coreLists := [], siblingLists := [], cpuinfo := some (render dec secs), sysconf } =
      .ok (if ((packages secs).dedup.map C).sum = 0 then none else some (((packages secs).dedup.map C).sum : Int)) := by
  obtain ⟨seen, h1, h2, h3⟩ := sections_lines hN C secs hw hC [] List.nodup_nil
  have hperm : seen.Perm (packages secs).dedup := by
    rw [List.perm_ext_iff_of_nodup h1 (List.nodup_dedup _)]
    intro p; rw [h2, List.mem_dedup]; simp
  have hsum : ((seen.map fun (p : Nat) => ((p : Int), (C p : Int))).map (·.2)).sum = (((packages secs).dedup.map C).sum : Int) := by
    rw [List.map_map, ← (hperm.map C).sum_eq]
    clear h1 h2 h3 hperm
    induction seen with
    | nil => rfl
    | cons x xs ih => simp only [List.map_cons, List.sum_cons, Function.comp_apply] at ih ⊢; rw [ih]; simp
  unfold physical
  simp only [ne_eq, not_true_eq_false, if_false, List.map_nil, distinct, List.length_nil]
  rw [show cpuLines int (([] : Dict Int), ([] : Dict (List Char))) (render dec secs) = _ from h3]
  simp only [hsum]
  by_cases hz : ((packages secs).dedup.map C).sum = 0
  · rw [if_pos hz, if_pos (by rw [hz]; rfl)]
  · rw [if_neg hz, if_neg (by exact_mod_cast hz)]

/-- Decimal digits, and `int` of a blank followed by digits: what `Numbers` asks for. -/
def digit (n : Nat) : List Char := List.replicate (n + 1) '1'

/-- Reads back `digit` (unary numbers will do for the example). -/
def undigit : List Char → Option Int
  | ' ' :: ds => some ((ds.length : Int) - 1)
  | _ => none

/-- Non-vacuity: numbers exist, and a file with two packages of four cores, two processors each. -/
example : Numbers digit undigit where
  digits n c hc := by rw [List.eq_of_mem_replicate hc]; decide
  nonempty n := by simp [digit]
  read n := by simp [digit, undigit]

def twoPackages : List (List Entry) :=
  [[.other "processor\t: 0\n".toList, .phys 0, .cores 4], [.other "processor\t: 1\n".toList, .phys 0, .cores 4],
   [.other "processor\t: 2\n".toList, .phys 1, .cores 4], [.other "processor\t: 3\n".toList, .phys 1, .cores 4]]

example : WellFormed twoPackages := by
  intro s hs t ht
  simp only [twoPackages, List.mem_cons, List.not_mem_nil, or_false] at hs
  rcases hs with rfl | rfl | rfl | rfl <;> simp at ht <;> subst ht <;> refine ⟨?_, ?_, ?_⟩ <;> decide

example : packages twoPackages = [0, 0, 1, 1] ∧ ((packages twoPackages).dedup.map fun _ => 4).sum = 8 := by decide

example : physical undigit { coreLists := [], siblingLists := [], cpuinfo := some (render digit twoPackages), sysconf := none } = .ok (some 8) := by decide +kernel

/-! ### the whole call -/

/-- C82 (usual case): `os.sysconf` works and /sys has the topology: the number of processors and the number of distinct cores, and the import goes on. -/
theorem C82_usual {S : Type} (int : List Char → Option Int) {κ : Type} [DecidableEq κ] (ids : List Nat) (hne : ids ≠ []) (core : Nat → κ)
    (fmt : List Nat → List Char) (hfmt : ∀ i ∈ ids, ∀ j ∈ ids, strip (fmt (ids.filter fun k => core k = core i)) = strip (fmt (ids.filter fun k => core k = core j)) →
      ids.filter (fun k => core k = core i) = ids.filter fun k => core k = core j) (siblings : List (List Char)) (cpuinfo : Option (List (List Char)))
    (n : Nat) (start : S → S) (s : S) :
    cpuCount int { coreLists := ids.map fun i => fmt (ids.filter fun j => core j = core i), siblingLists := siblings, cpuinfo, sysconf := some n } =
      .ok (some n, some ((ids.map core).dedup.length : Int)) ∧
    initPackage int { coreLists := ids.map fun i => fmt (ids.filter fun j => core j = core i), siblingLists := siblings, cpuinfo, sysconf := some n } start s =
      (.ok (), start s) := by
  have h : cpuCount int { coreLists := ids.map fun i => fmt (ids.filter fun j => core j = core i), siblingLists := siblings, cpuinfo, sysconf := some n } =
      .ok (some n, some ((ids.map core).dedup.length : Int)) := by
    unfold cpuCount logical
    simp only [C82_topology int ids hne core fmt hfmt siblings cpuinfo (some n)]
  exact ⟨h, by unfold initPackage; rw [h]⟩

/-- C82 (no sysconf): the number of lines of /proc/cpuinfo that begin with "processor", in any mix of cases, if there is one. -/
theorem C82_processor_lines (y : Sys) (h : y.sysconf = none) (lines : List (List Char)) (hl : y.cpuinfo = some lines)
    (hpos : ∃ l ∈ lines, "processor".toList.isPrefixOf (lower l) = true) :
    logical y = .ok (some (lines.countP fun l => "processor".toList.isPrefixOf (lower l))) := by
  unfold logical
  rw [h, hl]
  simp only
  rw [← List.countP_eq_length_filter, if_neg]
  intro h0
  obtain ⟨l, h1, h2⟩ := hpos
  exact (List.countP_eq_zero.1 h0) l h1 h2

/-- Case: a machine without sysconf and with two processor lines. -/
example : logical { coreLists := [], siblingLists := [], cpuinfo := some ["processor\t: 0\n".toList, "model\n".toList, "Processor\t: 1\n".toList], sysconf := none } =
    .ok (some 2) :=
  C82_processor_lines _ rfl ["processor\t: 0\n".toList, "model\n".toList, "Processor\t: 1\n".toList] rfl ⟨"processor\t: 0\n".toList, by decide, by decide⟩

/-- C82 is violated: without sysconf and without "processor" lines the documented result is None (after trying /proc/stat); the call raises NameError
whatever the system, and so does the import of the package. -/
theorem C82_stat_violated {S : Type} (int : List Char → Option Int) (y : Sys) (h : y.sysconf = none) (lines : List (List Char)) (hl : y.cpuinfo = some lines)
    (hnone : ∀ l ∈ lines, "processor".toList.isPrefixOf (lower l) = false) (start : S → S) (s : S) :
    cpuCount int y = .error .nameError ∧ initPackage int y start s = (.error .nameError, s) := by
  have h1 : logical y = .error .nameError := by
    unfold logical
    rw [h, hl]
    simp only
    rw [← List.countP_eq_length_filter, if_pos]
    rw [List.countP_eq_zero]
    intro l hl h2
    rw [hnone l hl] at h2; cases h2
  have h2 : cpuCount int y = .error .nameError := by unfold cpuCount; rw [h1]
  exact ⟨h2, by unfold initPackage; rw [h2]⟩

/-- C82 is violated: a `physical id` line without a tab before the colon makes the call and the import fail (if /sys has no topology), although the count
is not used by the import. -/
theorem C82_import_violated {S : Type} (int : List Char → Option Int) (n : Nat) (start : S → S) (s : S) :
    initPackage int { coreLists := [], siblingLists := [], cpuinfo := some ["processor : 0\n".toList, "physical id : 0\n".toList], sysconf := some n } start s =
      (.error .valueError, s) := by
  rfl

/-- C82 is violated: a last section that is not followed by a blank line is not counted. -/
theorem C82_last_section_violated : physical undigit { coreLists := [], siblingLists := [], cpuinfo := some ((render digit twoPackages).dropLast), sysconf := none } = .ok (some 8) ∧
    physical undigit { coreLists := [], siblingLists := [], cpuinfo := some ((render digit [[.phys 0, .cores 4]]).dropLast), sysconf := none } = .ok none := by
  decide +kernel

end Pnumpy.Props
