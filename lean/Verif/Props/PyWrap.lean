import Verif.Model.PyWrap
/-
C81: pnumpy.argsort / argmin / argmax / searchsorted are numpy's.
-/
namespace Pnumpy.Props
open Spec.Py Pnumpy.PyWrap

variable {S V A R : Type}

/-- numpy's method of the same name. -/
def npName : Fn → String
  | .argsort => "argsort"
  | .argmax => "argmax"
  | .argmin => "argmin"
  | .searchsorted => "searchsorted"

/-- C81 (part): for every object without `__array_wrap__` (lists, tuples, numbers, ...) the call ends exactly as numpy's, with the same effects. -/
theorem C81_plain_partial (arrMethod : R → String → A → Call S V) (toArr : V → Call S V) (f : Fn) (o : Obj S V A R) (h : o.arrayWrap = none) (a : A) :
    call arrMethod f o a = npWrapfunc arrMethod toArr o (npName f) a := by
  have hn : f.name = npName f := by cases f <;> rfl
  unfold call wrapfunc npWrapfunc
  rw [hn]
  have hw : wrapit arrMethod o (npName f) a = o.asArray.andThen fun r => (arrMethod r (npName f) a).andThen fun v =>
      match o.arrayWrap with
      | some w => (toArr v).andThen w
      | none => fun s => (.ret v, s) := by
    unfold wrapit; rw [h]
  cases hm : o.method (npName f) with
  | none => exact hw
  | some m =>
    funext s
    simp only
    rcases h2 : m a s with ⟨v | e, s'⟩
    · rfl
    · cases e <;> first | rfl | exact congrFun hw s'

/-- C81 (part): for every object with the method (arrays in particular) the call ends exactly as numpy's unless the method raises TypeError. -/
theorem C81_method_partial (arrMethod : R → String → A → Call S V) (toArr : V → Call S V) (f : Fn) (o : Obj S V A R) (m : A → Call S V)
    (hm : o.method (npName f) = some m) (a : A) (s : S) (h : (m a s).1 ≠ .raise .typeError) :
    call arrMethod f o a s = m a s ∧ npWrapfunc arrMethod toArr o (npName f) a s = m a s := by
  have hn : f.name = npName f := by cases f <;> rfl
  unfold call wrapfunc npWrapfunc
  rw [hn, hm]
  simp only
  rcases h2 : m a s with ⟨v | e, s'⟩
  · exact ⟨rfl, rfl⟩
  · rw [h2] at h
    cases e <;> first | exact ⟨rfl, rfl⟩ | exact absurd rfl h

/-- C81 (part): for an array the method raises TypeError for bad arguments; if it does so without any effect, the call raises TypeError as well,
without any effect. `o.asArray` of an array is the array itself. -/
theorem C81_array_partial (arrMethod : R → String → A → Call S V) (toArr : V → Call S V) (f : Fn) (o : Obj S V A R) (r : R)
    (hself : ∀ s, o.asArray s = (.ret r, s)) (hm : o.method (npName f) = some (arrMethod r (npName f))) (a : A) (s : S)
    (hpure : (arrMethod r (npName f) a s).1 = .raise .typeError → (arrMethod r (npName f) a s).2 = s) :
    call arrMethod f o a s = arrMethod r (npName f) a s ∧ npWrapfunc arrMethod toArr o (npName f) a s = arrMethod r (npName f) a s := by
  by_cases h : (arrMethod r (npName f) a s).1 = .raise .typeError
  · have hn : f.name = npName f := by cases f <;> rfl
    have h2 : arrMethod r (npName f) a s = (.raise .typeError, s) := Prod.ext h (hpure h)
    unfold call wrapfunc npWrapfunc wrapit
    rw [hn, hm]
    simp only [h2, Call.andThen, hself]
    exact ⟨trivial, trivial⟩
  · exact C81_method_partial arrMethod toArr f o _ hm a s h

/-- C81 is violated: an object with `__array_wrap__` but without the method (or whose method raises TypeError) gets NameError whenever numpy
would have returned a value of `__array_wrap__`. -/
theorem C81_wrap_violated (arrMethod : R → String → A → Call S V) (toArr : V → Call S V) (f : Fn) (o : Obj S V A R) (w : V → Call S V)
    (hm : o.method (npName f) = none) (hw : o.arrayWrap = some w) (a : A) (s s' : S) (v : V)
    (hok : npWrapfunc arrMethod toArr o (npName f) a s = (.ret v, s')) :
    (call arrMethod f o a s).1 = .raise .nameError := by
  have hn : f.name = npName f := by cases f <;> rfl
  unfold npWrapfunc at hok
  unfold call wrapfunc wrapit
  rw [hn, hm]
  simp only [hm, hw, Call.andThen] at hok ⊢
  rcases h1 : o.asArray s with ⟨r | e, s1⟩
  · simp only [h1] at hok ⊢
    rcases h2 : arrMethod r (npName f) a s1 with ⟨u | e, s2⟩
    · rfl
    · simp [h2] at hok
  · simp [h1] at hok

/-- C81, exactly: a call in state `s` ends as numpy's (same value or exception, same effects) unless the object has `__array_wrap__`, its method is
missing or raises TypeError (leaving state `s1`), and the conversion to an array and the array's method then succeed (leaving `s3`) — except where
wrapping the result would itself raise NameError at once. -/
theorem C81_iff_partial (arrMethod : R → String → A → Call S V) (toArr : V → Call S V) (f : Fn) (o : Obj S V A R) (a : A) (s : S) :
    call arrMethod f o a s = npWrapfunc arrMethod toArr o (npName f) a s ↔
      ∀ (w : V → Call S V) (s1 : S) (r : R) (s2 : S) (v : V) (s3 : S), o.arrayWrap = some w →
        ((o.method (npName f) = none ∧ s1 = s) ∨ ∃ m, o.method (npName f) = some m ∧ m a s = (.raise .typeError, s1)) →
        o.asArray s1 = (.ret r, s2) → arrMethod r (npName f) a s2 = (.ret v, s3) →
        ((toArr v).andThen w) s3 = (.raise .nameError, s3) := by
  cases hw : o.arrayWrap with
  | none => exact ⟨fun _ w s1 r s2 v s3 h => (by cases h), fun _ => (by rw [C81_plain_partial arrMethod toArr f o hw a])⟩
  | some w =>
    have hn : f.name = npName f := by cases f <;> rfl
    -- the fallback, from any state
    have hfall : ∀ s1, (wrapit arrMethod o (npName f) a s1 = (o.asArray.andThen fun r => (arrMethod r (npName f) a).andThen fun v =>
          match o.arrayWrap with
          | some w => (toArr v).andThen w
          | none => fun s => (.ret v, s)) s1) ↔
        ∀ r s2 v s3, o.asArray s1 = (.ret r, s2) → arrMethod r (npName f) a s2 = (.ret v, s3) → ((toArr v).andThen w) s3 = (.raise .nameError, s3) := by
      intro s1
      unfold wrapit
      simp only [hw, Call.andThen]
      rcases h1 : o.asArray s1 with ⟨r | e, s2⟩
      · simp only
        rcases h2 : arrMethod r (npName f) a s2 with ⟨v | e, s3⟩
        · simp only
          constructor
          · intro h r' s2' v' s3' e1 e2
            cases e1
            rw [h2] at e2
            cases e2
            exact h.symm
          · intro h
            exact (h r s2 v s3 rfl h2).symm
        · simp only [true_iff]
          intro r' s2' v' s3' e1 e2
          cases e1
          rw [h2] at e2
          cases e2
      · simp only [true_iff]
        intro r' s2' v' s3' e1
        cases e1
    unfold call wrapfunc npWrapfunc
    rw [hn]
    cases hm : o.method (npName f) with
    | none =>
      refine (hfall s).trans ⟨fun h w' s1 r s2 v s3 e0 e1 => ?_, fun h r s2 v s3 => h w s r s2 v s3 rfl (Or.inl ⟨rfl, rfl⟩)⟩
      cases e0
      rcases e1 with ⟨_, rfl⟩ | ⟨m, h', _⟩
      · exact h r s2 v s3
      · cases h'
    | some m =>
      simp only
      rcases h2 : m a s with ⟨v | e, s'⟩
      · simp only [true_iff]
        rintro w' s1 r s2 v s3 _ (⟨h', _⟩ | ⟨m', h', h3⟩)
        · cases h'
        · cases h'; rw [h2] at h3; cases h3
      · cases e
        case typeError =>
          refine (hfall s').trans ⟨fun h w' s1 r s2 v s3 e0 e1 => ?_, fun h r s2 v s3 => h w s' r s2 v s3 rfl (Or.inr ⟨m, rfl, h2⟩)⟩
          cases e0
          rcases e1 with ⟨h', _⟩ | ⟨m', h', h3⟩
          · cases h'
          · cases h'; rw [h2] at h3; cases h3; exact h r s2 v s3
        all_goals
          simp only [true_iff]
          rintro w' s1 r s2 v s3 _ (⟨h', _⟩ | ⟨m', h', h3⟩)
          · cases h'
          · cases h'; rw [h2] at h3; cases h3

/-- Such an object: converts to an array, whose argsort returns 7, and `__array_wrap__` adds one. -/
def wrapped : Obj Unit Nat Unit Unit := { method := fun _ => none, arrayWrap := some fun v s => (.ret (v + 1), s), asArray := fun s => (.ret (), s) }

/-- Non-vacuity of `C81_wrap_violated`: numpy returns 8, pnumpy raises NameError. -/
example : npWrapfunc (fun _ _ _ s => (.ret 7, s)) (fun v s => (.ret v, s)) wrapped "argsort" () () = (.ret 8, ()) ∧
    (call (fun _ _ _ s => (.ret 7, s)) .argsort wrapped () ()).1 = .raise .nameError := ⟨rfl, rfl⟩

/-- Case: `C81_iff_partial` finds this object's call wrong. -/
example : call (fun _ _ _ s => (.ret 7, s)) .argsort wrapped () () ≠ npWrapfunc (fun _ _ _ s => (.ret 7, s)) (fun v s => (.ret v, s)) wrapped "argsort" () () := by
  intro h
  have := (C81_iff_partial (fun _ _ _ s => (.ret 7, s)) (fun v s => (.ret v, s)) .argsort wrapped () ()).1 h _ () () () 7 () rfl (Or.inl ⟨rfl, rfl⟩) rfl rfl
  cases this

/-- Non-vacuity of the others: a list, and an array whose method takes only argument 0. -/
example : call (fun _ _ _ s => (.ret 7, s)) .argmin ({ method := fun _ => none, arrayWrap := none, asArray := fun s => (.ret (), s) } : Obj Unit Nat Unit Unit) () () = (.ret 7, ()) := rfl
example : call (fun _ _ (a : Nat) s => if a = 0 then (.ret 7, s) else (.raise .typeError, s)) .argmax
    ({ method := fun _ => some fun a s => if a = 0 then (.ret 7, s) else (.raise .typeError, s), arrayWrap := some fun v s => (.ret v, s), asArray := fun s => (.ret (), s) } : Obj Unit Nat Nat Unit)
    3 () = (.raise .typeError, ()) := rfl

/-- Cases of the other three: a list, an object with a method, an array whose method takes only argument 0. -/
example := C81_plain_partial (fun _ _ _ s => (.ret 7, s)) (fun v s => (.ret v, s)) .argmin
  ({ method := fun _ => none, arrayWrap := none, asArray := fun s => (.ret (), s) } : Obj Unit Nat Unit Unit) rfl ()

example := C81_method_partial (fun _ _ _ s => (.ret 7, s)) (fun v s => (.ret v, s)) .argmax
  ({ method := fun _ => some fun _ s => (.ret 5, s), arrayWrap := none, asArray := fun s => (.ret (), s) } : Obj Unit Nat Unit Unit) _ rfl () () (by simp)

example := C81_array_partial (fun _ _ (a : Nat) s => if a = 0 then (.ret 7, s) else (.raise .typeError, s)) (fun v s => (.ret v, s)) .argmax
  ({ method := fun _ => some fun a s => if a = 0 then (.ret 7, s) else (.raise .typeError, s), arrayWrap := some fun v s => (.ret v, s), asArray := fun s => (.ret (), s) } : Obj Unit Nat Nat Unit)
  () (fun _ => rfl) rfl 3 () (fun _ => rfl)

end Pnumpy.Props
