import Verif.Model.Hooks
/-
Detection of the processor (`ATOP_cpuid`, `PrintCPUInfo`, /repo/src/atop/threads.cpp:247-332, 334-337, 411-415, 616-657), the text returned by `cpustring`
(/repo/src/atop/threads.h:677-681, /repo/src/pnumpy/_pnumpy.cpp:1895-1900) and the two gates of the import (/repo/src/pnumpy/__init__.py:42-54, 77;
/repo/src/pnumpy/_pnumpy.cpp:1294, 1672-1674).  The `cpuid` instruction is an arbitrary function.
-/
namespace Pnumpy.CpuId

/-- The four registers `cpuid` fills (/repo/src/atop/threads.cpp:304-316). -/
structure Regs where
  eax : BitVec 32
  ebx : BitVec 32
  ecx : BitVec 32
  edx : BitVec 32

/-- A processor, as far as `cpuid` shows it: leaf (and sub-leaf 0) to registers (/repo/src/atop/threads.cpp:304-316). -/
abbrev Cpu := Nat → Regs

/-- `ATOP_cpuid_t` (/repo/src/atop/common_inc.h:224-229). -/
structure Id where
  f1c : BitVec 32
  f1d : BitVec 32
  f7b : BitVec 32
  f7c : BitVec 32

/-- `ATOP_cpuid`, the x86-64 branch (/repo/src/atop/threads.cpp:256-260, 303-332). -/
def atopCpuid (c : Cpu) : Id :=
  let n := (c 0).eax
  { f1c := if 1 ≤ n.toNat then (c 1).ecx else 0
    f1d := if 1 ≤ n.toNat then (c 1).edx else 0
    f7b := if 7 ≤ n.toNat then (c 7).ebx else 0
    f7c := if 7 ≤ n.toNat then (c 7).ecx else 0 }

/-- `((cpuid.r) & (1U << bit)) != 0` (/repo/src/atop/threads.cpp:334-337). -/
def hasBit (r : BitVec 32) (bit : Nat) : Bool := (r &&& (1#32 <<< bit)) != 0

/-- `g_avx2`: `B(avx2, 5)` (/repo/src/atop/threads.cpp:414, 649). -/
def gAvx2 (c : Cpu) : Bool := hasBit (atopCpuid c).f7b 5
/-- `g_bmi2`: `B(bmi2, 8)` (/repo/src/atop/threads.cpp:416, 648). -/
def gBmi2 (c : Cpu) : Bool := hasBit (atopCpuid c).f7b 8

/-- The bytes of `CPUInfo` in memory, little-endian (/repo/src/atop/threads.cpp:618, 632-641). -/
def regBytes (r : Regs) : List (BitVec 8) :=
  [r.eax, r.ebx, r.ecx, r.edx].flatMap fun x => [x.extractLsb' 0 8, x.extractLsb' 8 8, x.extractLsb' 16 8, x.extractLsb' 24 8]

/-- The loop `for (i = 0; i < 16; i++) CPUBrandString[i + off] = ...` (/repo/src/atop/threads.cpp:632-641); `none`: outside the array. -/
def writeAt (buf : List (BitVec 8)) (off : Nat) (bytes : List (BitVec 8)) : Option (List (BitVec 8)) :=
  if off + bytes.length ≤ buf.length then some (buf.take off ++ bytes ++ buf.drop (off + bytes.length)) else none

/-- One round of the loop over the extended leaves (/repo/src/atop/threads.cpp:627-642). -/
def brandStep (c : Cpu) (buf : List (BitVec 8)) (i : Nat) : Option (List (BitVec 8)) :=
  if i = 0x80000002 then writeAt buf 0 (regBytes (c i))
  else if i = 0x80000003 then writeAt buf 16 (regBytes (c i))
  else if i = 0x80000004 then writeAt buf 32 (regBytes (c i))
  else some buf

/-- `CPUBrandString` after the loop (/repo/src/atop/threads.cpp:617-642). `none`: a write outside the array, or, for the largest `nExIds`, no end: `i <= nExIds` is
then true for every 32-bit `i`. -/
def brand (c : Cpu) : Option (List (BitVec 8)) :=
  let nExIds := (c 0x80000000).eax.toNat
  if nExIds = 2 ^ 32 - 1 then none
  else (List.range' 0x80000000 (nExIds + 1 - 0x80000000)).foldlM (brandStep c) (List.replicate 64 0)

/-- What `%s` prints: the bytes up to the first zero byte; `none`: there is none (/repo/src/atop/threads.cpp:651). -/
def cstr (buf : List (BitVec 8)) : Option (List (BitVec 8)) := if 0 ∈ buf then some (buf.takeWhile (· != 0)) else none

/-- The bytes of a literal (/repo/src/atop/threads.cpp:651). -/
def lit (s : String) : List (BitVec 8) := s.toList.map fun ch => BitVec.ofNat 8 ch.toNat
/-- `%d` of a flag (/repo/src/atop/threads.cpp:651). -/
def flag (b : Bool) : List (BitVec 8) := if b then lit "1" else lit "0"
/-- One digit of `%x` (/repo/src/atop/threads.cpp:651). -/
def hexDigit (d : BitVec 4) : BitVec 8 := if d.toNat < 10 then BitVec.ofNat 8 (48 + d.toNat) else BitVec.ofNat 8 (87 + d.toNat)
/-- `0x%.8x` with the blank before it (/repo/src/atop/threads.cpp:651). -/
def hex (x : BitVec 32) : List (BitVec 8) := lit " 0x" ++ ([7, 6, 5, 4, 3, 2, 1, 0].map fun j => hexDigit (x.extractLsb' (4 * j) 4))

/-- `CPUString`: `snprintf` into 512 bytes, cut to 511 and a zero byte (/repo/src/atop/threads.cpp:651, /repo/src/atop/threads.h:677-681), then read up to the zero
byte by `cpustring` (/repo/src/pnumpy/_pnumpy.cpp:1895-1900). -/
def cpustring (c : Cpu) : Option (List (BitVec 8)) := do
  let b ← brand c
  let s ← cstr b
  let id := atopCpuid c
  let text := lit "**CPU: " ++ s ++ lit "  AVX2:" ++ flag (gAvx2 c) ++ lit "  BMI2:" ++ flag (gBmi2 c) ++ hex id.f1c ++ hex id.f1d ++ hex id.f7b ++ hex id.f7c
  pure ((text.take 511).takeWhile (· != 0))

/-- The gate of the package (/repo/src/pnumpy/__init__.py:42-52): `feature` is numpy's `__cpu_features__['AVX2']`, `none` if numpy has no such table. True: goes on. -/
def pythonGate (feature : Option Bool) : Bool := feature.getD true

/-- `import pnumpy` (/repo/src/pnumpy/__init__.py:42-79, /repo/src/pnumpy/_pnumpy.cpp:1287-1676): whether it raises, and the state of the hooks. The C module is
loaded, and its code runs, only if the first gate lets it. -/
def importPnumpy (cfg : Hooks.Cfg) (c : Cpu) (feature : Option Bool) : Bool × Hooks.St :=
  if pythonGate feature then
    (!gAvx2 c, Hooks.run { cfg with avx2 := gAvx2 c } [.doInit])
  else (true, Hooks.init)

end Pnumpy.CpuId
