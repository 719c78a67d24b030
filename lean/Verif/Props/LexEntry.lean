import Verif.Proofs.LexEntry
import Verif.Props.LexSort
/-
Property theorems C63-C66: the arguments of lexsort.
-/
namespace Pnumpy.Props
open Pnumpy.Sort Pnumpy.Lex Pnumpy.LexEntry Spec

/-! ### C63: reference counts -/

/-- The object a call returns a reference to. -/
def Out.object : Out → Option Nat
  | .sorted o _ => some o
  | _ => none

/-- Reference counts before a call: nothing refers to objects that do not exist, and the arguments exist. -/
structure Sane (h : Heap) (args : List PyObj) (kw : Kw) : Prop where
  unused : ∀ id, h.next ≤ id → h.refs id = 0
  keys : ∀ id, PyObj.array id ∈ keysOf args → id < h.next
  index : ∀ id, kw.index = .array id → id < h.next

/-- The same shape, strides, item size, type and byte order, and the same contents unless `written`. -/
def Same (written : Prop) (a b : Arr) : Prop :=
  b.dims = a.dims ∧ b.strides = a.strides ∧ b.itemsize = a.itemsize ∧ b.dtype = a.dtype ∧ b.swapped = a.swapped ∧ (¬ written → b.mem = a.mem)

theorem Same.refl (written : Prop) (a : Arr) : Same written a a := ⟨rfl, rfl, rfl, rfl, rfl, fun _ => rfl⟩

theorem typeCheck_object {is : List Info} {o : Out} (ex : typeCheck is = some o) : Out.object o = none := by
  induction is with
  | nil => cases ex
  | cons i is ih =>
    unfold typeCheck at ex
    split at ex
    · cases ex; rfl
    · cases ex; rfl
    · exact ih ex

theorem body_refs {w : Nat} {af : Bool} {is : List Info} {kw : Kw} {h h' : Heap} {o : Out} (hb : Body w af is kw h h' o)
    (hf : h.refs h.next = 0) (hnf : o ≠ .fault) :
    (∀ id, h'.refs id = h.refs id + (if Out.object o = some id then 1 else 0)) ∧
    (∀ id, id < h.next → Same (kw.index = .array id) (h.arr id) (h'.arr id)) ∧
    (∀ k, Out.object o = some k → k = h.next ∨ kw.index = .array k) := by
  have chk : ∀ {o}, checks w is kw h = .inl o → Out.object o = none := by
    intro o e
    unfold checks at e
    split at e
    · rename_i x ex
      cases e
      unfold cutoffsOf at ex
      split at ex
      · simp only at ex
        split at ex
        · split at ex
          · cases ex; rfl
          · split at ex
            · cases ex; rfl
            · cases ex
        · cases ex; rfl
      · cases ex
    · split at e
      · rename_i x ex
        cases e
        exact typeCheck_object ex
      · split at e
        · rename_i x ex
          cases e
          unfold planIndex at ex
          split at ex
          · simp only at ex
            split at ex
            · split at ex
              · split at ex
                · cases ex; rfl
                · split at ex
                  · cases ex; rfl
                  · split at ex
                    · cases ex; rfl
                    · cases ex
              · cases ex
            · cases ex; rfl
          · cases ex
        · cases e
  cases hb with
  | stop hc =>
    have := chk hc
    refine ⟨fun id => ?_, fun _ _ => .refl _ _, fun k hk => ?_⟩
    · rw [this]; simp
    · rw [this] at hk; cases hk
  | noPrototype => exact absurd rfl hnf
  | noMemory => exact ⟨fun id => by simp [Out.object], fun _ _ => .refl _ _, (fun k hk => nomatch hk)⟩
  | fresh a =>
    refine ⟨fun id => ?_, fun o ho => ?_, fun k hk => Or.inl ?_⟩
    · show Function.update h.refs h.next 1 id = _
      by_cases hid : id = h.next
      · subst hid; rw [Function.update_self, hf]; simp [Out.object]
      · rw [Function.update_of_ne hid]; simp [Out.object, Ne.symm hid]
    · have : ∀ ix, ((h.new a).store h.next w ix).arr o = h.arr o := by
        intro ix
        show Function.update (Function.update h.arr h.next a) h.next _ o = _
        rw [Function.update_of_ne (by omega), Function.update_of_ne (by omega)]
      rw [this]; exact .refl _ _
    · cases hk; rfl
  | inPlace hc hp =>
    rename_i cut p o' cs ix0 ix hcs h0 hs
    suffices hidx : kw.index = .array o' by
      refine ⟨fun id => ?_, fun id _ => ?_, fun k hk => Or.inr ?_⟩
      · show Function.update h.refs o' (h.refs o' + 1) id = _
        by_cases hid : id = o'
        · subst hid; rw [Function.update_self]; simp [Out.object]
        · rw [Function.update_of_ne hid]; simp [Out.object, Ne.symm hid]
      · show Same _ _ (Function.update h.arr o' _ id)
        by_cases hid : id = o'
        · subst hid
          rw [Function.update_self]
          exact ⟨rfl, rfl, rfl, rfl, rfl, fun hn => absurd hidx hn⟩
        · rw [Function.update_of_ne hid]; exact .refl _ _
      · cases hk; exact hidx
    · unfold checks at hc
      split at hc
      · cases hc
      · split at hc
        · cases hc
        · split at hc
          · cases hc
          · rename_i q eq
            cases hc
            unfold planIndex at eq
            split at eq
            · rename_i id e
              simp only at eq
              split at eq
              · split at eq
                · split at eq
                  · cases eq
                  · split at eq
                    · cases eq
                    · split at eq
                      · cases eq
                      · cases eq; cases hp; exact e
                · cases eq; cases hp
              · cases eq
            · cases eq; cases hp
  | negative => exact absurd rfl hnf
  | sortFault => exact absurd rfl hnf

/-- **C63**: whatever the arguments and keywords are, and wherever the call fails (copying a key, allocating the result, any check), lexsort32 and
lexsort64 leave every reference count as it was, except one new reference to the returned array; every temporary copy of a key is released, and the
arrays of the caller keep their shape, strides, type and (apart from `index=`, into which the result is written) contents. -/
theorem C63_references (w : Nat) (fails : Nat → Bool) (allocFails : Bool) (args : List PyObj) (kw : Kw) (h h' : Heap) (o : Out)
    (hs : Sane h args kw) (hl : Lexsort w fails allocFails args kw h h' o) (hnf : o ≠ .fault) :
    (∀ id, h'.refs id = h.refs id + (if Out.object o = some id then 1 else 0)) ∧
    (∀ id, id < h.next → Same (kw.index = .array id) (h.arr id) (h'.arr id)) ∧
    (∀ k, Out.object o = some k → h.next ≤ k ∨ kw.index = .array k) := by
  cases hl with
  | fault => exact absurd rfl hnf
  | null hp =>
    rcases prepare_eq hp with e | ⟨e, _⟩
    · have := (buildArrayInfo_holds hs.unused hs.keys e).2 rfl
      exact ⟨fun id => by simp [Out.object, this.1], fun id hid => by rw [this.2 id hid]; exact .refl _ _, (fun k hk => nomatch hk)⟩
    · cases e
  | @body h1 h2 is _ hp hb =>
    rcases prepare_eq hp with e | ⟨e, _⟩
    · have H := (buildArrayInfo_holds hs.unused hs.keys e).1 is rfl
      obtain ⟨b1, b2, b3⟩ := body_refs hb (H.fresh _ (Nat.le_refl _)) hnf
      refine ⟨fun id => ?_, fun id hid => ?_, fun k hk => ?_⟩
      · rw [freeInfo_refs, b1, H.refs]; omega
      · rw [(freeInfo_frame is h2).1, ← H.arr id hid]; exact b2 id (Nat.lt_of_lt_of_le hid H.next)
      · rcases b3 k hk with rfl | h
        · exact Or.inl H.next
        · exact Or.inr h
    · cases e

/-! ### C64: which calls are refused -/

theorem sortable_iff {d : Int} (h : TypeNumber d) : sortable d = some (decide (KeyType d)) := by
  rcases h with ⟨h1, h2⟩ | h
  · obtain ⟨k, rfl⟩ := Int.eq_ofNat_of_zero_le h1
    have : k < 24 := by omega
    clear h1 h2
    have key : ∀ k : Fin 24, sortable ((k.1 : Nat) : Int) = some (decide (KeyType ((k.1 : Nat) : Int))) := by decide
    exact key ⟨k, this⟩
  · unfold sortable Dtypes.dtypeToAtopFn
    rw [if_neg (by simp [Dtypes.dtypeToAtop, Dtypes.sizeofInt]; omega)]
    rw [decide_eq_false (by unfold KeyType; omega)]
    rfl

theorem typeCheck_cases {is : List Info} (h : ∀ i ∈ is, TypeNumber i.dtype) :
    (typeCheck is = none ∧ ∀ i ∈ is, KeyType i.dtype) ∨ (typeCheck is = some .error ∧ ∃ i ∈ is, ¬ KeyType i.dtype) := by
  induction is with
  | nil => exact Or.inl ⟨rfl, fun i hi => by simp at hi⟩
  | cons i is ih =>
    have hi := sortable_iff (h i (List.mem_cons_self ..))
    unfold typeCheck
    rw [hi]
    by_cases hk : KeyType i.dtype
    · rw [decide_eq_true hk]
      simp only
      rcases ih (fun j hj => h j (List.mem_cons_of_mem _ hj)) with ⟨a, b⟩ | ⟨a, j, b, c⟩
      · exact Or.inl ⟨a, fun j hj => by rcases List.mem_cons.1 hj with rfl | hj; exact hk; exact b j hj⟩
      · exact Or.inr ⟨a, j, List.mem_cons_of_mem _ b, c⟩
    · rw [decide_eq_false hk]
      exact Or.inr ⟨rfl, i, List.mem_cons_self .., hk⟩

/-- Every info belongs to a key and the other way round. -/
theorem forall₂_mem {R : PyObj → Info → Prop} {xs : List PyObj} {is : List Info} (h : List.Forall₂ R xs is) :
    (∀ i ∈ is, ∃ x ∈ xs, R x i) ∧ ∀ x ∈ xs, ∃ i ∈ is, R x i := by
  induction h with
  | nil => exact ⟨fun i hi => by simp at hi, fun i hi => by simp at hi⟩
  | cons a b ih =>
    constructor
    · intro i hi
      rcases List.mem_cons.1 hi with rfl | hi
      · exact ⟨_, List.mem_cons_self .., a⟩
      · obtain ⟨x, hx, r⟩ := ih.1 i hi
        exact ⟨x, List.mem_cons_of_mem _ hx, r⟩
    · intro x hx
      rcases List.mem_cons.1 hx with rfl | hx
      · exact ⟨_, List.mem_cons_self .., a⟩
      · obtain ⟨i, hi, r⟩ := ih.2 x hx
        exact ⟨i, List.mem_cons_of_mem _ hi, r⟩

theorem prepare_outcome {h : Heap} {fails : Nat → Bool} {args : List PyObj} (hp : Proper h (keysOf args)) (hne : keysOf args ≠ []) :
    (∃ h1, prepare fails args h = (h1, .null) ∧ ((∃ j, fails j = true) ∨
      ¬ ∃ n, ∀ x ∈ keysOf args, ∃ id, x = .array id ∧ Acceptable (h.arr id) n)) ∨
    (∃ h1 is, prepare fails args h = (h1, .ok is) ∧ List.Forall₂ (InfoOf h h1) (keysOf args) is ∧ is ≠ [] ∧ ∃ n, ∀ i ∈ is, i.len = n) := by
  obtain ⟨h1, is, st, e, r⟩ := buildLoop_outcome (fails := fails) (keysOf args) 0 [] h (.refl h) hp
  rw [List.nil_append] at e
  have pe : prepare fails args h = match buildArrayInfo fails (keysOf args) h with
    | (h, .ok []) => (h, Built.fault)
    | r => r := rfl
  rcases r with ⟨rfl, hr⟩ | ⟨rfl, hr⟩
  · refine Or.inl ⟨freeInfo is h1, ?_, ?_⟩
    · rw [pe]
      unfold buildArrayInfo
      rw [e]
    · rcases hr with hr | ⟨x, hx, hr⟩
      · exact Or.inl hr
      · exact Or.inr fun ⟨n, hn⟩ => by
          obtain ⟨id, e1, e2⟩ := hn x hx
          exact hr ⟨id, n, e1, e2⟩
  · have his : is ≠ [] := by
      rintro rfl
      exact hne (List.forall₂_nil_right_iff.1 hr)
    obtain ⟨i0, is0, rfl⟩ := List.exists_cons_of_ne_nil his
    by_cases hall : (i0 :: is0).all (fun i => i.len == ((i0 :: is0).headD i).len) = true
    · refine Or.inr ⟨h1, i0 :: is0, ?_, hr, his, i0.len, ?_⟩
      · rw [pe]
        unfold buildArrayInfo
        rw [e]
        simp only
        rw [if_pos hall]
      · intro i hi
        have := List.all_eq_true.1 hall i hi
        simpa using this
    · refine Or.inl ⟨freeInfo (i0 :: is0) h1, ?_, Or.inr ?_⟩
      · rw [pe]
        unfold buildArrayInfo
        rw [e]
        simp only
        rw [if_neg hall]
      · rintro ⟨n, hn⟩
        apply hall
        have hlen : ∀ i ∈ (i0 :: is0), i.len = n := by
          intro i hi
          obtain ⟨x, hx, hxi⟩ := (forall₂_mem hr).1 i hi
          obtain ⟨id, rfl, m, s, o1, _, l1, _⟩ := hxi.ex
          obtain ⟨id', e1, s', o2, _⟩ := hn _ hx
          cases e1
          have : m = n := by have := o1.1.symm.trans o2.1; simpa using this
          rw [l1, this]
        rw [List.all_eq_true]
        intro i hi
        rw [show ((i0 :: is0).headD i) = i0 from rfl, hlen i hi, hlen i0 (List.mem_cons_self ..)]
        simp

/-- No keywords. -/
def noKw : Kw := ⟨.absent, .absent, none⟩

/-- The call raises. -/
def Out.Raises (o : Out) : Prop := o = .error ∨ o = .noneAndError

/-- Keys lexsort can work on: at least one, all 1-D arrays of the same length and of a sortable type, each packed or with at least two elements. -/
def Usable (h : Heap) (keys : List PyObj) : Prop :=
  ∃ n, ∀ x ∈ keys, ∃ id, x = .array id ∧ Acceptable (h.arr id) n ∧ KeyType (h.arr id).dtype

/-- **C64**: without keywords and while memory lasts, lexsort raises exactly if some argument is not a usable key (not an array, not one-dimensional,
another length, an unsortable type, or a not packed array of fewer than two elements). Arguments that contain None or a 0-d array are excluded (see
the violations). -/
theorem C64_refused_partial (w : Nat) (args : List PyObj) (h h' : Heap) (o : Out) (hp : Proper h (keysOf args)) (hne : keysOf args ≠ [])
    (ht : ∀ id, PyObj.array id ∈ keysOf args → TypeNumber (h.arr id).dtype)
    (hl : Lexsort w (fun _ => false) false args noKw h h' o) : Out.Raises o ↔ ¬ Usable h (keysOf args) := by
  rcases prepare_outcome (fails := fun _ => false) hp hne with ⟨h1, e, hr⟩ | ⟨h1, is, e, hf, his, n, hn⟩
  · have hu : ¬ Usable h (keysOf args) := by
      rcases hr with ⟨j, hj⟩ | hr
      · cases hj
      · rintro ⟨n, hn⟩
        exact hr ⟨n, fun x hx => by obtain ⟨id, a, b, _⟩ := hn x hx; exact ⟨id, a, b⟩⟩
    cases hl with
    | fault hp' => rw [e] at hp'; cases hp'
    | null hp' => exact ⟨fun _ => hu, fun _ => Or.inr rfl⟩
    | body hp' => rw [e] at hp'; cases hp'
  · have hty : ∀ i ∈ is, TypeNumber i.dtype := by
      intro i hi
      obtain ⟨x, hx, r⟩ := (forall₂_mem hf).1 i hi
      obtain ⟨id, rfl, m, s, _, _, _, d, _⟩ := r.ex
      rw [d]; exact ht id hx
    have huse : Usable h (keysOf args) ↔ ∀ i ∈ is, KeyType i.dtype := by
      constructor
      · rintro ⟨n, hu⟩ i hi
        obtain ⟨x, hx, r⟩ := (forall₂_mem hf).1 i hi
        obtain ⟨id, rfl, m, s, _, _, _, d, _⟩ := r.ex
        obtain ⟨id', e1, _, k⟩ := hu _ hx
        cases e1
        rw [d]; exact k
      · intro hk
        refine ⟨n, fun x hx => ?_⟩
        obtain ⟨i, hi, r⟩ := (forall₂_mem hf).2 x hx
        obtain ⟨id, rfl, m, s, o1, o2, l, d, _⟩ := r.ex
        refine ⟨id, rfl, ⟨s, ?_, ?_⟩, ?_⟩
        · rw [← hn i hi, l]; exact o1
        · rw [← hn i hi, l]; exact o2
        · rw [← d]; exact hk i hi
    rw [huse]
    cases hl with
    | fault hp' => rw [e] at hp'; cases hp'
    | null hp' => rw [e] at hp'; cases hp'
    | body hp' hb =>
      rw [e] at hp'
      cases hp'
      have hck : checks w is noKw h1 = match typeCheck is with
        | some o => .inl o
        | none => .inr (none, ⟨none, rowsOf is, .arange⟩) := by
        unfold checks
        rfl
      rcases typeCheck_cases hty with ⟨a, b⟩ | ⟨a, b⟩
      · rw [a] at hck
        simp only at hck
        refine ⟨fun hr => ?_, fun hr => absurd b hr⟩
        cases hb with
        | stop hc => rw [hck] at hc; cases hc
        | noMemory _ _ _ ha => cases ha
        | noPrototype => rcases hr with h | h <;> cases h
        | fresh => rcases hr with h | h <;> cases h
        | inPlace => rcases hr with h | h <;> cases h
        | negative => rcases hr with h | h <;> cases h
        | sortFault => rcases hr with h | h <;> cases h
      · rw [a] at hck
        simp only at hck
        obtain ⟨i, hi, hk⟩ := b
        refine ⟨fun _ hall => hk (hall i hi), fun _ => ?_⟩
        cases hb with
        | stop hc => rw [hck] at hc; cases hc; exact Or.inl rfl
        | noMemory hc => rw [hck] at hc; cases hc
        | noPrototype hc => rw [hck] at hc; cases hc
        | fresh _ hc => rw [hck] at hc; cases hc
        | inPlace hc => rw [hck] at hc; cases hc
        | negative hc => rw [hck] at hc; cases hc
        | sortFault hc => rw [hck] at hc; cases hc

/-! ### C65: the result for arrays of any layout -/

/-- Key `x` is a native 1-D array with the elements `c`. -/
def KeyIs (h : Heap) (n : Nat) (x : PyObj) (c : Col) : Prop :=
  ∃ id, x = .array id ∧ id < h.next ∧ (h.arr id).Denotes n c ∧ (h.arr id).swapped = false ∧ KeyType (h.arr id).dtype

/-- Key `x` is a 1-D array (of either byte order) with the elements `c` if one reads it in the machine's byte order. -/
def KeyRaw (h : Heap) (n : Nat) (x : PyObj) (c : Col) : Prop :=
  ∃ id, x = .array id ∧ id < h.next ∧ ({ h.arr id with swapped := false } : Arr).Denotes n c ∧ KeyType (h.arr id).dtype

theorem KeyIs.raw {h : Heap} {n : Nat} {x : PyObj} {c : Col} (k : KeyIs h n x c) : KeyRaw h n x c := by
  obtain ⟨id, e, l, ⟨s, ct, d1, d2, d3, d4, d5⟩, d6, d7⟩ := k
  exact ⟨id, e, l, ⟨s, ct, d1, d2, d3, d4, by rw [d5, d6]⟩, d7⟩

theorem proper_of_keys {h : Heap} {n : Nat} {xs : List PyObj} {cs : List Col} (hk : List.Forall₂ (KeyRaw h n) xs cs) : Proper h xs := by
  induction hk with
  | nil => intro x hx; simp at hx
  | cons a b ih =>
    intro x hx
    rcases List.mem_cons.1 hx with rfl | hx
    · obtain ⟨id, rfl, l, ⟨s, ct, d1, d2, _⟩, _⟩ := a
      refine ⟨(fun h => nomatch h), fun id' e => ?_⟩
      cases e
      simp only at d1 d2
      exact ⟨l, by rw [d1, d2]; rfl, by rw [d1]; simp⟩
    · exact ih x hx

theorem keyCols {h h1 : Heap} {n : Nat} {xs : List PyObj} {cs : List Col} {is : List Info} (hk : List.Forall₂ (KeyRaw h n) xs cs)
    (hf : List.Forall₂ (InfoOf h h1) xs is) : is.map (keyCol h1) = cs.map some ∧ ∀ i ∈ is, KeyType i.dtype ∧ i.len = n := by
  induction hk generalizing is with
  | nil => cases hf; exact ⟨rfl, fun i hi => by simp at hi⟩
  | cons a b ih =>
    cases hf with
    | cons c d =>
      obtain ⟨e1, e2⟩ := ih d
      obtain ⟨id, rfl, l, ⟨s, ct, d1, d2, d3, d4, d5⟩, d7⟩ := a
      simp only at d1 d2 d3 d4 d5
      obtain ⟨id', e3, m, s', o1, o2, f1, f2, f3, o, g1, g2, g3, g4⟩ := c.ex
      cases e3
      have em : m = n := by have := o1.1.symm.trans d1; simpa using this
      have es : s' = s := by have := o1.2.symm.trans d2; simpa using this
      subst em; subst es
      constructor
      · rw [List.map_cons, List.map_cons, e1]
        congr 1
        unfold keyCol
        rw [g1]
        simp only
        rw [f2, d3]
        simp only [Option.map_some]
        rw [f1, g4 ct d4, d5]
        simp
      · intro i hi
        rcases List.mem_cons.1 hi with rfl | hi
        · exact ⟨by rw [f2]; exact d7, f1⟩
        · exact e2 i hi

theorem types_of_keys {is : List Info} (h : ∀ i ∈ is, KeyType i.dtype) : typeCheck is = none := by
  rcases typeCheck_cases (is := is) (fun i hi => by
    rcases h i hi with h | h | h | h
    · exact Or.inl ⟨h.1, by omega⟩
    all_goals exact Or.inl (by omega)) with ⟨a, _⟩ | ⟨_, i, hi, hk⟩
  · exact a
  · exact absurd (h i hi) hk

theorem rows_eq {is : List Info} {n : Nat} (hne : is ≠ []) (h : ∀ i ∈ is, i.len = n) : rowsOf is = n := by
  cases is with
  | nil => exact absurd rfl hne
  | cons i is => exact h i (List.mem_cons_self ..)

/-- Collecting keys: refused, or everything the sort needs is in place. -/
theorem prepared {h : Heap} {fails : Nat → Bool} {args : List PyObj} {n : Nat} {cs : List Col}
    (hk : List.Forall₂ (KeyRaw h n) (keysOf args) cs) (hne : keysOf args ≠ []) :
    (∃ h1, prepare fails args h = (h1, .null) ∧ ((∃ j, fails j = true) ∨ ¬ Usable h (keysOf args))) ∨
    ∃ h1 is ob, prepare fails args h = (h1, .ok is) ∧ (∀ cs', is.map (keyCol h1) = cs'.map some ↔ cs' = cs) ∧ typeCheck is = none ∧ rowsOf is = n ∧
      is.head?.bind (·.obj) = some ob ∧ (h1.arr ob).dims = [n] ∧ Grows h h1 := by
  rcases prepare_outcome (fails := fails) (proper_of_keys hk) hne with ⟨h1, e, hr⟩ | ⟨h1, is, e, hf, his, m, hm⟩
  · refine Or.inl ⟨h1, e, hr.imp id fun hr => ?_⟩
    rintro ⟨n, hn⟩
    exact hr ⟨n, fun x hx => by obtain ⟨id, a, b, _⟩ := hn x hx; exact ⟨id, a, b⟩⟩
  · obtain ⟨k1, k2⟩ := keyCols hk hf
    have g : Grows h h1 := by
      rcases prepare_eq e with e | ⟨e, _⟩
      · unfold buildArrayInfo at e
        rcases eb : buildLoop fails 0 (keysOf args) [] h with ⟨h2, is2, st⟩
        have := buildLoop_grows _ _ _ _ _ _ _ eb
        rw [eb] at e
        cases st with
        | fault => cases e
        | error => cases e
        | done =>
          simp only at e
          split at e
          · cases e; exact this
          · cases e
      · cases e
    have hh : ∃ ob, is.head?.bind (·.obj) = some ob ∧ (h1.arr ob).dims = [n] := by
      clear hk e k1
      generalize keysOf args = ks at hf
      cases hf with
      | nil => exact absurd rfl his
      | cons a b =>
        obtain ⟨id, rfl, m, s, _, _, l, _, _, o, g1, _, g3, _⟩ := a.ex
        refine ⟨o, g1, ?_⟩
        rw [g3, ← l, (k2 _ (List.mem_cons_self ..)).2]
    obtain ⟨ob, h2, h3⟩ := hh
    refine Or.inr ⟨h1, is, ob, e, fun cs' => ⟨fun e => ?_, fun e => by rw [e, k1]⟩, types_of_keys fun i hi => (k2 i hi).1,
      rows_eq his fun i hi => (k2 i hi).2, h2, h3, g⟩
    rw [k1] at e
    exact (List.map_injective_iff.2 (Option.some_injective _) e).symm

/-- A kind name that means the stable sort: absent, or beginning with 'm' or 's'. -/
def StableKind (k : Option (List Char)) : Prop := k = none ∨ (∃ r, k = some ('m' :: r)) ∨ ∃ r, k = some ('s' :: r)

theorem kind_merge {k : Option (List Char)} (h : StableKind k) : getKind k = .merge := by
  rcases h with rfl | ⟨r, rfl⟩ | ⟨r, rfl⟩ <;> rfl

/-! Stored integers -/

theorem le_bytes (m : Int → BitVec 8) (x : Nat) : ∀ (k b : Nat) (p : Int), (∀ j : Nat, j < k → m (p + j) = BitVec.ofNat 8 (x / 256 ^ (b + j))) →
    littleEndian m p k = x / 256 ^ b % 256 ^ k := by
  intro k
  induction k with
  | zero => intro b p _; simp [littleEndian, Nat.mod_one]
  | succ k ih =>
    intro b p hm
    unfold littleEndian
    have h0 := hm 0 (by omega)
    rw [show p + ((0 : Nat) : Int) = p by omega, Nat.add_zero] at h0
    rw [h0, ih (b + 1) (p + 1) (fun j hj => by
      have := hm (j + 1) (by omega)
      rw [show p + 1 + (j : Int) = p + ((j + 1 : Nat) : Int) by push_cast; omega, this, show b + 1 + j = b + (j + 1) by omega])]
    rw [BitVec.toNat_ofNat, Nat.pow_succ 256 k, Nat.mul_comm (256 ^ k) 256, Nat.mod_mul, Nat.pow_succ 256 b, Nat.div_div_eq_div_mul]

theorem stored_at (w : Nat) (ix : List Nat) (mem : Int → BitVec 8) (i : Nat) (hi : i < ix.length) (hlt : ix[i] < 2 ^ (8 * w - 1)) (hw : 0 < w) :
    (BitVec.ofNat (8 * w) (littleEndian (storeInts w ix mem) ((w : Int) * i) w)).toInt = ix[i] := by
  have h1 : littleEndian (storeInts w ix mem) ((w : Int) * i) w = ix[i] / 256 ^ 0 % 256 ^ w := by
    apply le_bytes
    intro j hj
    have e1 : ((w : Int) * i + j) / w = i := by
      rw [Int.mul_add_ediv_left _ _ (by omega), Int.ediv_eq_zero_of_lt (by omega) (by omega)]; omega
    have e2 : ((w : Int) * i + j) % w = j := by
      rw [Int.mul_add_emod_self_left]; exact Int.emod_eq_of_lt (by omega) (by omega)
    have hb : (w : Int) * i + j < (w * ix.length : Nat) := by
      have : w * (i + 1) ≤ w * ix.length := Nat.mul_le_mul_left _ hi
      rw [Nat.mul_add] at this
      have h3 : (w : Int) * i = ((w * i : Nat) : Int) := by push_cast; rfl
      omega
    have hb0 : 0 ≤ (w : Int) * i + j := by
      have h3 : (w : Int) * i = ((w * i : Nat) : Int) := by push_cast; rfl
      omega
    unfold storeInts
    rw [if_pos ⟨hb0, hb⟩, e1, e2]
    simp [hi]
  have hp : (256 : Nat) ^ w = 2 ^ (8 * w) := by rw [Nat.pow_mul]
  have h2 : (2 : Nat) ^ (8 * w) = 2 * 2 ^ (8 * w - 1) := by
    rw [← Nat.pow_succ']; congr 1; omega
  rw [h1, Nat.pow_zero, Nat.div_one, hp, Nat.mod_eq_of_lt (by omega)]
  have h3 : (BitVec.ofNat (8 * w) ix[i]).toNat = ix[i] := by rw [BitVec.toNat_ofNat, Nat.mod_eq_of_lt (by omega)]
  rw [BitVec.toInt_eq_toNat_of_lt (by rw [h3]; omega), h3]

theorem holds_stored {a : Arr} {w : Nat} {ix : List Nat} (hd : a.dims = [ix.length]) (hs : a.strides = [(w : Int)]) (hn : a.swapped = false)
    (hw : 0 < w) (hlt : ∀ i ∈ ix, i < 2 ^ (8 * w - 1)) :
    ({ a with mem := storeInts w ix a.mem } : Arr).HoldsInts w (ix.map Int.ofNat) := by
  refine ⟨by simpa using hd, hs, hn, fun i x hx => ?_⟩
  rw [List.getElem?_map] at hx
  obtain ⟨y, hy, rfl⟩ := Option.map_eq_some_iff.1 hx
  obtain ⟨hi, e⟩ := List.getElem?_eq_some_iff.1 hy
  have := stored_at w ix a.mem i hi (hlt _ (List.getElem_mem hi)) hw
  rw [← e]
  exact this.symm

/-- What lexsort leaves for any keys read in the machine's byte order, from what the passes over the keys do. -/
theorem lexsort_gen (w : Nat) (hw : 0 < w) (fails : Nat → Bool) (allocFails : Bool) (args : List PyObj) (kind : Option (List Char)) (h h' : Heap) (o : Out)
    (n : Nat) (cs : List Col) (hk : List.Forall₂ (KeyRaw h n) (keysOf args) cs) (hne : keysOf args ≠ [])
    (hex : ∃ ix, LexRun (getKind kind) cs n ix) (hperm : ∀ ix, LexRun (getKind kind) cs n ix → ix.Perm (List.range n)) (hn : n ≤ 2 ^ (8 * w - 1))
    (hl : Lexsort w fails allocFails args ⟨.absent, .absent, kind⟩ h h' o) :
    (Out.Raises o ∧ ((∃ j, fails j = true) ∨ allocFails = true ∨ ¬ Usable h (keysOf args))) ∨
      ∃ r ix, o = .sorted r ix ∧ h.next ≤ r ∧ (h'.arr r).HoldsInts w (ix.map Int.ofNat) ∧
        LexRun (getKind kind) cs n ix := by
  rcases prepared (fails := fails) hk hne with ⟨h1, e, hr⟩ | ⟨h1, is, ob, e, k1, k2, k3, k4, k5, g⟩
  · cases hl with
    | fault hp' => rw [e] at hp'; cases hp'
    | null hp' => exact Or.inl ⟨Or.inr rfl, hr.elim Or.inl fun h => Or.inr (Or.inr h)⟩
    | body hp' => rw [e] at hp'; cases hp'
  · cases hl with
    | fault hp' => rw [e] at hp'; cases hp'
    | null hp' => rw [e] at hp'; cases hp'
    | @body h1' h2 is' _ hp' hb =>
      rw [e] at hp'
      cases hp'
      have hck : checks w is ⟨.absent, .absent, kind⟩ h1 = .inr (none, ⟨none, n, .arange⟩) := by
        unfold checks
        rw [k2, k3]
        rfl
      cases hb with
      | stop h2 => rw [hck] at h2; cases h2
      | noPrototype h2 _ h4 => rw [k4] at h4; cases h4
      | noMemory _ _ _ ha => exact Or.inl ⟨Or.inr rfl, Or.inr (Or.inl ha)⟩
      | @fresh cut p o' cs' ix0 ix a h2 h3 h4 h5 h6 h7 h8 h9 =>
        rw [hck] at h2
        cases h2
        obtain rfl := (k1 _).1 h7
        have := h8.2 rfl
        simp only at this
        subst this
        have h9' : LexRun (getKind kind) cs' n ix := h9
        rw [k4] at h4
        cases h4
        have hst := hperm ix h9'
        refine Or.inr ⟨_, ix, rfl, g.1, ?_, h9'⟩
        rw [(freeInfo_frame is _).1]
        have : ((h1.new a).store h1.next w ix).arr h1.next = { a with mem := storeInts w ix a.mem } := by
          show Function.update (Function.update h1.arr h1.next a) h1.next { Function.update h1.arr h1.next a h1.next with
            mem := storeInts w ix (Function.update h1.arr h1.next a h1.next).mem } h1.next = _
          rw [Function.update_self, Function.update_self]
        rw [this]
        have hlen : ix.length = n := by rw [hst.length_eq, List.length_range]
        refine holds_stored (by rw [h6.1, k5, hlen]) h6.2.1 h6.2.2.2 hw fun i hi => ?_
        have := List.mem_range.1 (hst.mem_iff.1 hi)
        omega
      | inPlace h2 h3 => rw [hck] at h2; cases h2; cases h3
      | negative h2 h3 => rw [hck] at h2; cases h2; cases h3
      | @sortFault cut p cs' ix0 h2 h3 h4 h5 =>
        rw [hck] at h2
        cases h2
        obtain rfl := (k1 _).1 h3
        have := h4.2 rfl
        simp only at this
        subst this
        exfalso
        apply h5
        exact hex

/-- What lexsort leaves for any keys read in the machine's byte order. -/
theorem lexsort_raw (w : Nat) (hw : 0 < w) (fails : Nat → Bool) (allocFails : Bool) (args : List PyObj) (kind : Option (List Char)) (h h' : Heap) (o : Out)
    (n : Nat) (cs : List Col) (hk : List.Forall₂ (KeyRaw h n) (keysOf args) cs) (hne : keysOf args ≠ []) (hkind : StableKind kind)
    (hc : ∀ c ∈ cs, c.Good ∧ c.rows = n) (hn : n ≤ 2 ^ (8 * w - 1)) (hn' : n < 2 ^ 63) (hs : (∃ c ∈ cs, Col.isStr c) → n < 65536)
    (hl : Lexsort w fails allocFails args ⟨.absent, .absent, kind⟩ h h' o) :
    (Out.Raises o ∧ ((∃ j, fails j = true) ∨ allocFails = true ∨ ¬ Usable h (keysOf args))) ∨
      ∃ r ix, o = .sorted r ix ∧ h.next ≤ r ∧ (h'.arr r).HoldsInts w (ix.map Int.ofNat) ∧
        IsStableArgsort (RowBefore (cs.map Col.before)) id n ix := by
  have hk' := kind_merge hkind
  have hmain := C24_lexsort_partial cs n hc hn' hs
  rw [← hk'] at hmain
  rcases lexsort_gen w hw fails allocFails args kind h h' o n cs hk hne hmain.1 (fun ix h => (hmain.2 ix h).1) hn hl with h | ⟨r, ix, h1, h2, h3, h4⟩
  · exact Or.inl h
  · exact Or.inr ⟨r, ix, h1, h2, h3, hmain.2 ix h4⟩

theorem forall₂_imp {α β : Type} {R S : α → β → Prop} (hi : ∀ a b, R a b → S a b) {xs : List α} {ys : List β} (h : List.Forall₂ R xs ys) :
    List.Forall₂ S xs ys := by
  induction h with
  | nil => exact .nil
  | cons a _ ih => exact .cons (hi _ _ a) ih

/-- **C65**: lexsort32 (`w = 4`) and lexsort64 (`w = 8`) of native 1-D arrays with any strides (slices, reversed and broadcast views) never crash; they
return a new array holding the stable lexicographic argsort of the elements of the views, whatever the schedule, or raise because memory runs out or a
key is not usable (fewer than two elements and not packed).
(Without NaN, float16 and large string arrays, as in C24.) -/
theorem C65_views_partial (w : Nat) (hw : w = 4 ∨ w = 8) (fails : Nat → Bool) (allocFails : Bool) (args : List PyObj) (kind : Option (List Char))
    (h h' : Heap) (o : Out) (n : Nat) (cs : List Col) (hk : List.Forall₂ (KeyIs h n) (keysOf args) cs) (hne : keysOf args ≠ []) (hkind : StableKind kind)
    (hc : ∀ c ∈ cs, c.Good ∧ c.rows = n) (hn : n < 2 ^ (8 * w - 1)) (hs : (∃ c ∈ cs, Col.isStr c) → n < 65536)
    (hl : Lexsort w fails allocFails args ⟨.absent, .absent, kind⟩ h h' o) :
    (Out.Raises o ∧ ((∃ j, fails j = true) ∨ allocFails = true ∨ ¬ Usable h (keysOf args))) ∨
      ∃ r ix, o = .sorted r ix ∧ h.next ≤ r ∧ (h'.arr r).HoldsInts w (ix.map Int.ofNat) ∧
        IsStableArgsort (RowBefore (cs.map Col.before)) id n ix := by
  have : n < 2 ^ 63 := by
    rcases hw with rfl | rfl
    · exact Nat.lt_trans hn (by decide)
    · exact hn
  exact lexsort_raw w (by omega) fails allocFails args kind h h' o n cs (forall₂_imp (fun _ _ k => k.raw) hk) hne hkind hc (Nat.le_of_lt hn) this hs hl

/-- **C65**: such a call can be carried out. -/
theorem C65_finishes (w : Nat) (args : List PyObj) (kind : Option (List Char)) (h : Heap) (n : Nat) (cs : List Col)
    (hk : List.Forall₂ (KeyIs h n) (keysOf args) cs) (hne : keysOf args ≠ []) (hkind : StableKind kind) (hu : Usable h (keysOf args))
    (hc : ∀ c ∈ cs, c.Good ∧ c.rows = n) (hn : n < 2 ^ 63) (hs : (∃ c ∈ cs, Col.isStr c) → n < 65536) :
    ∃ h' r ix, Lexsort w (fun _ => false) false args ⟨.absent, .absent, kind⟩ h h' (.sorted r ix) := by
  rcases prepared (fails := fun _ => false) (forall₂_imp (fun _ _ k => k.raw) hk) hne with ⟨h1, e, hr⟩ | ⟨h1, is, ob, e, k1, k2, k3, k4, k5, g⟩
  · rcases hr with ⟨_, hr⟩ | hr
    · cases hr
    · exact absurd hu hr
  · have hck : checks w is ⟨.absent, .absent, kind⟩ h1 = .inr (none, ⟨none, n, .arange⟩) := by
      unfold checks
      rw [k2, k3]
      rfl
    obtain ⟨ix, hix⟩ := (C24_lexsort_partial cs n hc hn hs).1
    refine ⟨_, _, ix, .body e (.fresh (ix0 := List.range n) ⟨(h1.arr ob).dims, [(w : Int)], w, 7, false, fun _ => 0⟩ hck rfl k4 rfl
      ⟨rfl, rfl, rfl, rfl⟩ ((k1 cs).2 rfl) ⟨by simp, fun _ => rfl⟩ ?_)⟩
    show Passes (getKind kind) cs (List.range n) ix
    rw [kind_merge hkind]
    exact hix

/-- **C65**, for `pnumpy.lexsort`: for such keys its result is that of np.lexsort (a stable lexicographic argsort), also when lexsort32 refuses the arguments. -/
theorem C65_pn_lexsort_partial (fails : Nat → Bool) (allocFails : Bool) (args : List PyObj) (kind : Option (List Char)) (h h' : Heap) (o : Out)
    (n : Nat) (cs : List Col) (hk : List.Forall₂ (KeyIs h n) (keysOf args) cs) (hne : keysOf args ≠ []) (hkind : StableKind kind)
    (hc : ∀ c ∈ cs, c.Good ∧ c.rows = n) (hn : n < 2 ^ 31) (hs : (∃ c ∈ cs, Col.isStr c) → n < 65536)
    (numpy : List Nat) (hnp : IsStableArgsort (RowBefore (cs.map Col.before)) id n numpy)
    (hl : Lexsort 4 fails allocFails args ⟨.absent, .absent, kind⟩ h h' o) :
    pyLexsort (fun _ ix => ix) (.value numpy) o = .value numpy := by
  rcases C65_views_partial 4 (Or.inl rfl) fails allocFails args kind h h' o n cs hk hne hkind hc hn hs hl with ⟨(rfl | rfl), _⟩ | ⟨r, ix, rfl, _, _, hix⟩
  · rfl
  · rfl
  · show PyResult.value ix = _
    congr 1
    refine (hix.1.trans hnp.1.symm).eq_of_pairwise (fun i j _ _ h3 h4 => ?_) hix.2 hnp.2
    have h5 := h3.2 h4.1
    have h6 := h4.2 h3.1
    omega

end Pnumpy.Props
