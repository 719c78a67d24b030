/-
`pnumpy.cpu_count_linux` and `init`: src/pnumpy/cpu.py 15-116.
Bytes are characters; `int` is Python's `int` of a byte string (`none`: ValueError). Files are read at one moment; a missing file is `none`.
-/
namespace Pnumpy.Cpu

/-- Exceptions (cpu.py 15-92): `open` of a missing file, `int` / unpacking, an undefined name. -/
inductive Exc where
  | fileNotFound
  | valueError
  | nameError
deriving DecidableEq

/-- The white space `bytes.strip` removes (cpu.py:35, 44). -/
def isSpace (c : Char) : Bool := c = ' ' || c = '\t' || c = '\n' || c = '\r' || c = '\x0b' || c = '\x0c'

/-- `bytes.strip()` (cpu.py:35, 44). -/
def strip (l : List Char) : List Char := ((l.dropWhile isSpace).reverse.dropWhile isSpace).reverse

/-- `bytes.lower()` of one byte: only the ASCII letters change (cpu.py:44, 74). -/
def lower1 (c : Char) : Char := if 'A' ≤ c ∧ c ≤ 'Z' then Char.ofNat (c.toNat + 32) else c

/-- `bytes.lower()` (cpu.py:44, 74). -/
def lower (l : List Char) : List Char := l.map lower1

/-- `line.split(b'\t:', 1)` (cpu.py:55); `none`: the separator does not occur, so the unpacking fails. -/
def split : List Char → Option (List Char × List Char)
  | [] => none
  | c :: l =>
    if c = '\t' then
      match l with
      | ':' :: r => some ([], r)
      | _ => (split l).map fun p => (c :: p.1, p.2)
    else (split l).map fun p => (c :: p.1, p.2)

/-- A dict: the newest entry of a key counts (cpu.py:40-41). -/
abbrev Dict (κ : Type) := List (κ × Int)

/-- `d[k] = v` (cpu.py:49, 56). -/
def Dict.set {κ : Type} [DecidableEq κ] (d : Dict κ) (k : κ) (v : Int) : Dict κ := (k, v) :: d.filter fun p => p.1 ≠ k

/-- `d[k]` (cpu.py:49-50). -/
def Dict.get {κ : Type} [DecidableEq κ] (d : Dict κ) (k : κ) : Option Int := (d.find? fun p => p.1 = k).map (·.2)

/-- `b'physical id'` (cpu.py:49, 54). -/
def PHYS : List Char := "physical id".toList
/-- `b'cpu cores'` (cpu.py:50, 54). -/
def CORES : List Char := "cpu cores".toList

/-- One line of /proc/cpuinfo (cpu.py:43-56); `int`: Python's `int`. -/
def cpuLine (int : List Char → Option Int) (st : Dict Int × Dict (List Char)) (line : List Char) : Except Exc (Dict Int × Dict (List Char)) :=
  let line := lower (strip line)
  if line = [] then
    match st.2.get PHYS, st.2.get CORES with
    | some p, some c => .ok (st.1.set p c, [])
    | _, _ => .ok (st.1, [])
  else if PHYS.isPrefixOf line || CORES.isPrefixOf line then
    match split line with
    | none => .error .valueError
    | some (k, v) =>
      match int v with
      | none => .error .valueError
      | some n => .ok (st.1, st.2.set k n)
  else .ok st

/-- The loop over the lines (cpu.py:42-56). -/
def cpuLines (int : List Char → Option Int) : Dict Int × Dict (List Char) → List (List Char) → Except Exc (Dict Int × Dict (List Char))
  | st, [] => .ok st
  | st, l :: ls => match cpuLine int st l with
    | .error e => .error e
    | .ok st' => cpuLines int st' ls

/-- `len(set(...))` of the stripped contents (cpu.py:24-36). -/
def distinct : List (List Char) → List (List Char)
  | [] => []
  | x :: xs => if x ∈ xs then distinct xs else x :: distinct xs

/-- What the functions read: the contents of `core_cpus_list` and of `thread_siblings_list` files, the lines of /proc/cpuinfo, `os.sysconf` (cpu.py:30-33, 42, 66). -/
structure Sys where
  coreLists : List (List Char)
  siblingLists : List (List Char)
  cpuinfo : Option (List (List Char))
  sysconf : Option Nat

/-- `cpu_physical_linux` (cpu.py:18-59); `ok none` is Python's None. -/
def physical (int : List Char → Option Int) (y : Sys) : Except Exc (Option Int) :=
  let files := if y.coreLists ≠ [] then y.coreLists else y.siblingLists
  let ls := distinct (files.map strip)
  if ls.length ≠ 0 then .ok (some ls.length)
  else match y.cpuinfo with
    | none => .error .fileNotFound
    | some lines => match cpuLines int ([], []) lines with
      | .error e => .error e
      | .ok (mapping, _) =>
        let r := (mapping.map (·.2)).sum
        .ok (if r = 0 then none else some r)

/-- The first part of `cpu_count_linux` (cpu.py:65-91): `open_text` is not defined. -/
def logical (y : Sys) : Except Exc (Option Nat) :=
  match y.sysconf with
  | some n => .ok (some n)
  | none => match y.cpuinfo with
    | none => .error .fileNotFound
    | some lines =>
      let num := (lines.filter fun l => "processor".toList.isPrefixOf (lower l)).length
      if num = 0 then .error .nameError else .ok (some num)

/-- `cpu_count_linux` (cpu.py:61-92). -/
def cpuCount (int : List Char → Option Int) (y : Sys) : Except Exc (Option Nat × Option Int) :=
  match logical y with
  | .error e => .error e
  | .ok n => match physical int y with
    | .error e => .error e
    | .ok p => .ok (n, p)

/-- `init` on Linux, run when the package is imported (cpu.py:94-116, __init__.py:76): the counts are computed and not used; an exception prevents the import.
`start` is `_pnumpy.initialize()`. -/
def initPackage {S : Type} (int : List Char → Option Int) (y : Sys) (start : S → S) (s : S) : Except Exc Unit × S :=
  match cpuCount int y with
  | .error e => (.error e, s)
  | .ok _ => (.ok (), start s)

end Pnumpy.Cpu
