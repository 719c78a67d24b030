/-
What a user expects of pnumpy's settings functions: each setting is a variable; a getter returns the
value of the last setter (or the default), a setter returns the value before it.
-/
namespace Pnumpy.Spec

/-- Python-visible calls.  `operation` is any threaded array operation in between. -/
inductive SetCall where
  | setWorkers (k : Int) | getWorkers
  | threadEnable | threadDisable | threadIsEnabled
  | atopEnable | atopDisable | atopIsEnabled
  | ledgerEnable | ledgerDisable | ledgerIsEnabled
  | recyclerEnable | recyclerDisable | recyclerIsEnabled
  | zigzag
  | atopSetWorkers (name : String) (dtype : Nat) (k : Int)
  | operation
deriving DecidableEq, Repr

inductive Ret where
  | none | int (v : Int) | bool (b : Bool)
deriving DecidableEq, Repr

/-- The most recent call (the history is given newest call first) that `f` recognises as setting the
variable, or the default. -/
def lastSet {α : Type} (f : SetCall → Option α) (dflt : α) : List SetCall → α
  | [] => dflt
  | c :: older => match f c with
    | some v => v
    | Option.none => lastSet f dflt older

/-- `x` forced into `[lo, hi]`. -/
def clampInt (lo hi x : Int) : Int := max lo (min hi x)

/-- The number of workers woken per call, given the history; between 1 and one less than the number of
worker threads the machine has. -/
def workersNow (W : Int) : List SetCall → Int :=
  lastSet (fun | .setWorkers k => some (clampInt 1 (W - 1) k) | _ => Option.none) (clampInt 1 (W - 1) 11)

def threadsOn : List SetCall → Bool :=
  lastSet (fun | .threadEnable => some true | .threadDisable => some false | _ => Option.none) true
def atopOn : List SetCall → Bool :=
  lastSet (fun | .atopEnable => some true | .atopDisable => some false | _ => Option.none) true
def ledgerOn : List SetCall → Bool :=
  lastSet (fun | .ledgerEnable => some true | .ledgerDisable => some false | _ => Option.none) false
def recyclerOn : List SetCall → Bool :=
  lastSet (fun | .recyclerEnable => some true | .recyclerDisable => some false | _ => Option.none) false
/-- zigzag is on after an odd number of toggles. -/
def zigzagOn (h : List SetCall) : Bool := h.count .zigzag % 2 == 1

/-- The worker limit of one hooked function: the last accepted `atop_setworkers` for the same name and
dtype (accepted: pnumpy enabled at that time, a hooked function, 0 ≤ k < 64). -/
def funcWorkers (hooked : String → Nat → Bool) (dflt : Int) (name : String) (dtype : Nat) : List SetCall → Int
  | [] => dflt
  | .atopSetWorkers n d k :: older =>
      if n = name ∧ d = dtype ∧ hooked n d ∧ atopOn older ∧ 0 ≤ k ∧ k < 64 then k
      else funcWorkers hooked dflt name dtype older
  | _ :: older => funcWorkers hooked dflt name dtype older

/-- What each call returns after the history `h`. -/
def expected (W : Int) (hooked : String → Nat → Bool) (dflt : String → Int) (h : List SetCall) : SetCall → Ret
  | .setWorkers _ => .int (workersNow W h)
  | .getWorkers => .int (workersNow W h)
  | .threadIsEnabled => .bool (threadsOn h)
  | .atopIsEnabled => .bool (atopOn h)
  | .ledgerIsEnabled => .bool (ledgerOn h)
  | .recyclerIsEnabled => .bool (recyclerOn h)
  | .zigzag => .bool (!zigzagOn h)
  | .atopSetWorkers n d k =>
      if hooked n d ∧ atopOn h ∧ 0 ≤ k ∧ k < 64 then .int (funcWorkers hooked (dflt n) n d h) else .bool false
  | _ => .none

end Pnumpy.Spec
