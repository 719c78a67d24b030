/-
What Linux says about processors. /proc/cpuinfo: one section per logical processor, a blank line after each; `physical id` and `cpu cores` lines
give the package and the number of cores of that package. /sys: one file per logical processor, listing the processors of the same core.
-/
namespace Pnumpy.Spec.Cpu

/-- A line of /proc/cpuinfo: `name\t: value`, the two interesting ones apart. -/
inductive Entry where
  | other (text : List Char)
  | phys (n : Nat)
  | cores (n : Nat)

/-- A section as it is written; `dec` writes numbers. -/
def Entry.text (dec : Nat → List Char) : Entry → List Char
  | .other t => t
  | .phys n => "physical id\t: ".toList ++ dec n ++ ['\n']
  | .cores n => "cpu cores\t: ".toList ++ dec n ++ ['\n']

/-- The lines of the file. -/
def render (dec : Nat → List Char) (secs : List (List Entry)) : List (List Char) :=
  secs.flatMap fun s => s.map (Entry.text dec) ++ [['\n']]

/-- The package and core count of a section: the last line of each kind. -/
def Entry.physOf : List Entry → Option Nat
  | [] => none
  | e :: es => match Entry.physOf es with
    | some n => some n
    | none => match e with | .phys n => some n | _ => none

/-- See `physOf`. -/
def Entry.coresOf : List Entry → Option Nat
  | [] => none
  | e :: es => match Entry.coresOf es with
    | some n => some n
    | none => match e with | .cores n => some n | _ => none

end Pnumpy.Spec.Cpu
