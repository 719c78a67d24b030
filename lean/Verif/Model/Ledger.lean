/-
The ledger ring (src/pnumpy/ledger.cpp:163-192) and what `LedgerRecord`/`LedgerRecord2` store
(ledger.cpp:219-270).  An entry is abstract (`α`): category, operation, type and lengths.
-/
namespace Pnumpy.Ledger

/-- `RING_BUFFER_SIZE` (ledger.cpp:165). -/
def SIZE : Nat := 8096
/-- `RING_BUFFER_MASK` (ledger.cpp:166). -/
def MASK : BitVec 64 := 8095#64

/-- The ring of ledger.cpp:163-192. -/
structure St (α : Type) where
  /-- `Tail`, an int64 -/
  tail : BitVec 64
  /-- `LedgerQueue` -/
  queue : List (Option α)

/-- `Init` (ledger.cpp:173-182). -/
def init (α : Type) : St α := { tail := 0, queue := List.replicate SIZE none }

/-- `RING_BUFFER_MASK & Tail` (ledger.cpp:187). -/
def slotOf (tail : BitVec 64) : Nat := (MASK &&& tail).toNat

/-- `GetNextEntry` and filling in the entry (ledger.cpp:186-188, 226-246). `none`: the store would be
outside the array.  Concurrent recorders (`Tail++` is not atomic) are in Model/LedgerCalls. -/
def record {α : Type} (s : St α) (e : α) : Option (St α) :=
  if slotOf s.tail < s.queue.length then
    some { tail := s.tail + 1, queue := s.queue.set (slotOf s.tail) (some e) }
  else none

/-- Record a list of calls, oldest first (ledger.cpp:186-188). -/
def recordAll {α : Type} : St α → List α → Option (St α)
  | s, [] => some s
  | s, e :: es => (record s e).bind fun s' => recordAll s' es

/-- `ledger_info` (src/pnumpy/_pnumpy.cpp:1924-1926) returns None, whatever was recorded. -/
def ledgerInfo {α : Type} (_ : St α) : List α := []

end Pnumpy.Ledger
