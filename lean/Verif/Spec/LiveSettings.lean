import Verif.Model.LiveSettings
/-
Vocabulary for the properties of settings changed while operations run (C110).
-/
namespace Pnumpy.LiveSettings

/-- The states of an infinite run. -/
def states (W : Nat) (σ : Nat → Act) : Nat → St
  | 0 => init W
  | n + 1 => step W (states W σ n) (σ n)

/-- The work index a thread has been given. -/
def Thread.idx : Thread → Option Nat
  | .zig _ i _ => some i
  | .got _ i _ _ => some i
  | .size i _ _ => some i
  | .fill i _ _ _ => some i
  | .ztest i _ _ _ => some i
  | .zload i _ _ _ => some i
  | .zstore i _ _ _ _ => some i
  | .publish i _ _ _ => some i
  | .inCall i _ _ _ => some i
  | .finish i _ _ _ => some i
  | _ => none

/-- The operation a thread is in. -/
def Thread.call : Thread → Option Call
  | .idle => none
  | .test _ c | .alone c | .want c | .take _ c | .zig _ _ c | .got _ _ c _ | .size _ c _ | .fill _ c _ _ | .ztest _ c _ _ | .zload _ c _ _
  | .zstore _ c _ _ _ | .publish _ c _ _ | .inCall _ c _ _ | .finish _ c _ _ | .serial c => some c

/-- The thread has decided to share its operation with the workers. -/
def Thread.sharing : Thread → Bool
  | .idle | .test _ _ | .alone _ => false
  | _ => true

/-- The thread is between testing the zigzag flag and storing the changed one. -/
def Thread.flipping : Thread → Bool
  | .zload _ _ _ _ | .zstore _ _ _ _ _ => true
  | _ => false

/-- Fewer than 1024 operations have been started since each one in progress. -/
def Calm (s : St) : Prop := ∀ t i, (s.thread t).idx = some i → s.main < i + 1024

/-- A history in which never 1024 operations are started while one is in progress. -/
def CalmHistory (W : Nat) (l : List Act) : Prop := ∀ p, p <+: l → Calm (exec W p)

/-- The number of workers last asked for. -/
def lastAsked : List Act → Option Int
  | [] => none
  | a :: l => match lastAsked l, a with
    | some k, _ => some k
    | none, .setWorkers k => some k
    | none, _ => none

/-- True, False, True, … in order of time (the list has the latest first). -/
def Alternate : List Bool → Prop
  | [] => True
  | b :: l => b = (l.head? != some true) ∧ Alternate l

end Pnumpy.LiveSettings
