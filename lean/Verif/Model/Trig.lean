import Verif.Model.OpTables
import Verif.Model.Dispatch
import Verif.Spec.Trig
/-
The sin/cos/exp/log kernels: `UnaryOpFast` of /repo/src/atop/ops_trig.cpp 230-285, whose vector loop and
scalar loop apply different functions, the vector functions of /repo/src/atop/avx_mathfun.h and
`GetTrigOpFast` (/repo/src/atop/ops_trig.cpp 579-781, compiled without MSVC).
-/
namespace Pnumpy.Trig
open Pnumpy.Elem Pnumpy.Ieee Pnumpy.Dispatch
open Pnumpy.Spec (DT FloatUnit TFn)
open Pnumpy.Hooks (Op)

/-! ### The loop -/

/-- An access together with the function applied by it: `true` = `MATH_OP256` (vector loop), `false` = `MATH_OP`
(/repo/src/atop/ops_trig.cpp 261, 273, 280). -/
abbrev MAcc := Bool × Acc

/-- `UnaryOpFast<T, U256, MATH_OP, MATH_OP256>` (/repo/src/atop/ops_trig.cpp 230-285); `size = sizeof(T)`. -/
def trigProg (size : Nat) (p s po so : Int) (n : Nat) : List MAcc :=
  let w := 32 / size
  let c := strided p size
  let co := strided po size
  if (size : Int) = so ∧ (size : Int) = s ∧ n ≥ w then
    let r := vecDo c c co w (w * (n / w)) 0
    r.1.map (fun e => (true, e)) ++ (unarySlow (strided p s) (strided po so) so n r.2).map (fun e => (false, e))
  else (unarySlow (strided p s) (strided po so) so n 0).map fun e => (false, e)

/-- Effect of one access (as `Elem.stepAcc`), the function depending on the loop that makes it (/repo/src/atop/ops_trig.cpp 261, 273, 280). -/
def stepM {α : Type} (f : Bool → α → α) (s : MState α) (c : Nat) (e : MAcc) : Option (MState α) :=
  stepAcc (fun x _ => f e.1 x) s c e.2

/-- Run a sequence of accesses, each tagged with the kernel call that makes it (/repo/src/atop/ops_trig.cpp 230-285). -/
def runM {α : Type} (f : Bool → α → α) : MState α → List (Nat × MAcc) → Option (MState α)
  | s, [] => some s
  | s, (c, e) :: es => (stepM f s c e).bind fun s' => runM f s' es

/-- The memory after running accesses from memory `m` with empty registers (/repo/src/atop/ops_trig.cpp 230-285). -/
def runMemM {α : Type} (f : Bool → α → α) (m : Int → α) (es : List (Nat × MAcc)) : Option (Int → α) :=
  (runM f ⟨m, fun _ _ => none⟩ es).map (·.mem)

/-- `evs` is an interleaving of the programs (as `Elem.Interleaving`; the threads of /repo/src/atop/threads.h 319-389). -/
def InterleavingM (progs : List (List MAcc)) (evs : List (Nat × MAcc)) : Prop :=
  ∀ c, (evs.filter (fun e => e.1 == c)).map (·.2) = progs.getD c []

/-- `AtopTrigMathFunction` with a kernel in the table, pnumpy enabled and a nonzero output stride
(/repo/src/pnumpy/_pnumpy.cpp 938-988): one call, or one call per block handed out; with the ledger on the stub calls
itself with the ledger off.  `MaxThreads` is 7 (/repo/src/pnumpy/_pnumpy.cpp 1544). -/
inductive TrigExec (size : Nat) (p s po so : Int) (n : Nat) : World → List (Nat × MAcc) → Prop where
  | ledgered {w} (h : w.ledger = true) {evs} (hr : TrigExec size p s po so n { w with ledger := false } evs) :
      TrigExec size p s po so n w evs
  | serial {w} (hl : w.ledger = false) (h : w.getsItem n = false) :
      TrigExec size p s po so n w ((trigProg size p s po so n).map fun a => (0, a))
  | threaded {w} (hl : w.ledger = false) (h : w.getsItem n = true) (sched : List Nat)
      (hret : (Work.exec (Work.workMainSetup n 7 w.maxWakeup Work.CHUNK true w.zigzag) sched).pc 0 = .returned)
      (evs : List (Nat × MAcc))
      (hint : InterleavingM
        ((Work.kernelCalls (Work.workMainSetup n 7 w.maxWakeup Work.CHUNK true w.zigzag)
          (Work.exec (Work.workMainSetup n 7 w.maxWakeup Work.CHUNK true w.zigzag) sched)).map
            fun c => trigProg size (p + s * c.1) s (po + so * c.1) so c.2) evs) :
      TrigExec size p s po so n w evs

/-! ### The vector functions, one lane -/

/-- The constants and conversions in which the `_ps` and `_pd` versions differ (/repo/src/atop/avx_mathfun.h 72-171, 326-352, 472-492).
All instructions used work on each lane separately, so a lane is modelled. -/
structure MathC (k : Nat) where
  E : Nat
  M : Nat
  /-- `_mm256_cvttps_epi32` / `double_to_int64` (/repo/src/atop/avx_mathfun.h 111-117, 402). -/
  toInt : BitVec k → BitVec k
  /-- `_mm256_cvtepi32_ps` / `int64_to_double` (/repo/src/atop/avx_mathfun.h 120-123, 532). -/
  ofInt : BitVec k → BitVec k
  one : BitVec k
  half : BitVec k
  minNorm : BitVec k
  invMant : BitVec k
  signMask : BitVec k
  /-- `_pi32_256_0x7f` = 0x7f, `_pi32_256d_0x7f` = 0x7fe (/repo/src/atop/avx_mathfun.h 99, 107). -/
  bias : BitVec k
  sqrthf : BitVec k
  logP : List (BitVec k)
  logQ1 : BitVec k
  logQ2 : BitVec k
  expHi : BitVec k
  expLo : BitVec k
  log2ef : BitVec k
  expC1 : BitVec k
  expC2 : BitVec k
  expP : List (BitVec k)
  dp1 : BitVec k
  dp2 : BitVec k
  dp3 : BitVec k
  sinP : BitVec k × BitVec k × BitVec k
  cosP : BitVec k × BitVec k × BitVec k
  fopi : BitVec k

/-- `0x0018000000000000` converted to double, 1.5 * 2^52 (/repo/src/atop/avx_mathfun.h 112-123). -/
def magic : BitVec 64 := 0x4338000000000000#64

/-- The float constants (/repo/src/atop/avx_mathfun.h 72-99, 160-171, 340-352, 483-492), decimal literals rounded to nearest;
`cvtt`, `cvt` are the conversion instructions. -/
def ps (cvtt cvt : BitVec 32 → BitVec 32) : MathC 32 where
  E := 8
  M := 23
  toInt := cvtt
  ofInt := cvt
  one := 0x3f800000#32
  half := 0x3f000000#32
  minNorm := 0x00800000#32
  invMant := 0x807fffff#32
  signMask := 0x80000000#32
  bias := 0x7f#32
  sqrthf := 0x3f3504f3#32
  logP := [0x3d9021bb#32, 0xbdebd1b8#32, 0x3def251a#32, 0xbdfe5d4f#32, 0x3e11e9bf#32, 0xbe2aae50#32, 0x3e4cceac#32, 0xbe7ffffc#32, 0x3eaaaaaa#32]
  logQ1 := 0xb95e8083#32
  logQ2 := 0x3f318000#32
  expHi := 0x42b0c0a5#32
  expLo := 0xc2b0c0a5#32
  log2ef := 0x3fb8aa3b#32
  expC1 := 0x3f318000#32
  expC2 := 0xb95e8083#32
  expP := [0x39506967#32, 0x3ab743ce#32, 0x3c088908#32, 0x3d2aa9c1#32, 0x3e2aaaaa#32, 0x3f000000#32]
  dp1 := 0xbf490000#32
  dp2 := 0xb97da000#32
  dp3 := 0xb3222169#32
  sinP := (0xb94ca1f9#32, 0x3c08839e#32, 0xbe2aaaa3#32)
  cosP := (0x37ccf5ce#32, 0xbab6061a#32, 0x3d2aaaa5#32)
  fopi := 0x3fa2f983#32

/-- The double constants (/repo/src/atop/avx_mathfun.h 72-107, 147-158, 326-338, 472-481) and conversions (111-123). -/
def pd (F : FloatUnit) : MathC 64 where
  E := 11
  M := 52
  toInt x := F.add 64 x magic - magic
  ofInt j := F.sub 64 (j + magic) magic
  one := 0x3ff0000000000000#64
  half := 0x3fe0000000000000#64
  minNorm := 0x0010000000000000#64
  invMant := 0x800fffffffffffff#64
  signMask := 0x8000000000000000#64
  bias := 0x7fe#64
  sqrthf := 0x3fe6a09e667f3bcd#64
  logP := [0x3fb204376245245a#64, 0xbfbd7a370b138b4b#64, 0x3fbde4a34d098e98#64, 0xbfbfcba9db73ed2c#64, 0x3fc23d37d4cd3339#64,
    0xbfc555ca04cb8abb#64, 0x3fc999d58f0fbe3e#64, 0xbfcfffff7f002b13#64, 0x3fd555553e25cd96#64]
  logQ1 := 0xbf2bd0105c4242ea#64
  logQ2 := 0x3fe6300000000000#64
  expHi := 0x40561814affffffe#64
  expLo := 0xc0561814affffffe#64
  log2ef := 0x3ff71547652b82fe#64
  expC1 := 0x3fe6300000000000#64
  expC2 := 0xbf2bd0105c4242ea#64
  expP := [0x3f2a0d2ce64969e6#64, 0x3f56e879c3f007dd#64, 0x3f811120fb3cb51d#64, 0x3fa555381d73fd31#64, 0x3fc555553b661d99#64, 0x3fe000000672a44f#64]
  dp1 := 0xbfe9200000000000#64
  dp2 := 0xbf2fb40000000000#64
  dp3 := 0xbe64442d18469899#64
  sinP := (0xbf29943f27086a6c#64, 0x3f811073b3a82ffe#64, 0xbfc5555452709add#64)
  cosP := (0x3ef99eb9c5ac8ebf#64, 0xbf56c0c33a85cd5f#64, 0x3fa55554a115bc8f#64)
  fopi := 0x3ff45f306dc9c877#64

/-- `MINPS/MINPD(a, b)`: the second operand unless `a < b` (so also when one is NaN; used at /repo/src/atop/avx_mathfun.h 360, 416). -/
def minI (E M : Nat) {k : Nat} (a b : BitVec k) : BitVec k := if flt E M a b then a else b
/-- `MAXPS/MAXPD(a, b)` (used at /repo/src/atop/avx_mathfun.h 185, 258, 361, 417). -/
def maxI (E M : Nat) {k : Nat} (a b : BitVec k) : BitVec k := if flt E M b a then a else b
/-- A comparison result as a lane mask (`_mm256_cmp_ps/pd`, `_mm256_cmpeq_epi32/64`; /repo/src/atop/avx_mathfun.h 183, 375, 549). -/
def maskOf {k : Nat} (b : Bool) : BitVec k := if b then BitVec.allOnes k else 0

/-- `y = p0; y = y*x; y = y + p1; y = y*x; ...` (/repo/src/atop/avx_mathfun.h 215-233): Horner steps ending with an addition. -/
def horner (F : FloatUnit) (k : Nat) (x : BitVec k) : BitVec k → List (BitVec k) → BitVec k
  | y, [] => y
  | y, p :: ps => horner F k x (F.add k (F.mul k y x) p) ps

/-- The polynomial with the coefficients `cs` (highest first; the Horner chains of /repo/src/atop/avx_mathfun.h 215-233, 386-398). -/
def poly (F : FloatUnit) (k : Nat) (x : BitVec k) : List (BitVec k) → BitVec k
  | [] => 0
  | c :: cs => horner F k x c cs

/-- `log256_ps` (/repo/src/atop/avx_mathfun.h 177-248), `log256_pd` (251-321). -/
def logLane (F : FloatUnit) {k : Nat} (c : MathC k) (x0 : BitVec k) : BitVec k :=
  let invalid := maskOf (fle c.E c.M x0 0)
  let x := maxI c.E c.M x0 c.minNorm
  let imm0 := x >>> c.M
  let x := (x &&& c.invMant) ||| c.half
  let e := F.add k (c.ofInt (imm0 - c.bias)) c.one
  let mask := maskOf (flt c.E c.M x c.sqrthf)
  let tmp := x &&& mask
  let x := F.sub k x c.one
  let e := F.sub k e (c.one &&& mask)
  let x := F.add k x tmp
  let z := F.mul k x x
  let y := F.mul k (F.mul k (poly F k x c.logP) x) z
  let y := F.add k y (F.mul k e c.logQ1)
  let y := F.sub k y (F.mul k z c.half)
  let x := F.add k (F.add k x y) (F.mul k e c.logQ2)
  x ||| invalid

/-- `exp256_ps` (/repo/src/atop/avx_mathfun.h 354-409), `exp256_pd` (411-463). -/
def expLane (F : FloatUnit) {k : Nat} (c : MathC k) (x0 : BitVec k) : BitVec k :=
  let x := maxI c.E c.M (minI c.E c.M x0 c.expHi) c.expLo
  let fx := F.add k (F.mul k x c.log2ef) c.half
  let tmp := F.floor k fx
  let mask := maskOf (flt c.E c.M fx tmp) &&& c.one
  let fx := F.sub k tmp mask
  let x := F.sub k x (F.mul k fx c.expC1)
  let x := F.sub k x (F.mul k fx c.expC2)
  let z := F.mul k x x
  let y := F.add k (F.add k (F.mul k (poly F k x c.expP) z) x) c.one
  let pow2n := (c.toInt fx + c.bias) <<< c.M
  F.mul k y pow2n

/-- Range reduction and the two polynomials shared by `sin256` and `cos256` (/repo/src/atop/avx_mathfun.h 551-598, 628-675): the value before the sign is applied. -/
def sincosPoly (F : FloatUnit) {k : Nat} (c : MathC k) (x y : BitVec k) (polyMask : BitVec k) : BitVec k :=
  let x := F.add k (F.add k (F.add k x (F.mul k y c.dp1)) (F.mul k y c.dp2)) (F.mul k y c.dp3)
  let z := F.mul k x x
  let y := F.mul k (F.mul k (F.add k (F.mul k (F.add k (F.mul k c.cosP.1 z) c.cosP.2.1) z) c.cosP.2.2) z) z
  let y := F.add k (F.sub k y (F.mul k z c.half)) c.one
  let y2 := F.mul k (F.mul k (F.add k (F.mul k (F.add k (F.mul k c.sinP.1 z) c.sinP.2.1) z) c.sinP.2.2) z) x
  let y2 := F.add k y2 x
  F.add k (~~~polyMask &&& y) (polyMask &&& y2)

/-- `sin256_ps` (/repo/src/atop/avx_mathfun.h 506-600), `sin256_pd` (781-873). -/
def sinLane (F : FloatUnit) {k : Nat} (c : MathC k) (x0 : BitVec k) : BitVec k :=
  let x := x0 &&& ~~~c.signMask
  let sign := x0 &&& c.signMask
  let j := (c.toInt (F.mul k x c.fopi) + 1) &&& ~~~1
  let swap := (j &&& 4) <<< (k - 3)
  let polyMask := maskOf (j &&& 2 == 0)
  sincosPoly F c x (c.ofInt j) polyMask ^^^ (sign ^^^ swap)

/-- `cos256_ps` (/repo/src/atop/avx_mathfun.h 604-677), `cos256_pd` (877-951). -/
def cosLane (F : FloatUnit) {k : Nat} (c : MathC k) (x0 : BitVec k) : BitVec k :=
  let x := x0 &&& ~~~c.signMask
  let j := (c.toInt (F.mul k x c.fopi) + 1) &&& ~~~1
  let y := c.ofInt j
  let j := j - 2
  let sign := (~~~j &&& 4) <<< (k - 3)
  let polyMask := maskOf (j &&& 2 == 0)
  sincosPoly F c x y polyMask ^^^ sign

/-- The library functions `sinf`, `sin`, ... used by the scalar loops (/repo/src/atop/ops_trig.cpp 56-93). -/
structure Libm where
  fn : TFn → (k : Nat) → BitVec k → BitVec k

/-- The float conversion instructions (`_mm256_cvttps_epi32`, `_mm256_cvtepi32_ps`; /repo/src/atop/avx_mathfun.h 195, 402, 527, 532). -/
structure Cvt where
  tt : BitVec 32 → BitVec 32
  epi : BitVec 32 → BitVec 32

/-- A lane of `SIN_OP_256`, `COS_OP_256`, `LOG_OP_256`, `EXP_OP_256` (/repo/src/atop/ops_trig.cpp 138-145). -/
def vecFn (F : FloatUnit) {k : Nat} (c : MathC k) : TFn → BitVec k → BitVec k
  | .sin => sinLane F c | .cos => cosLane F c | .exp => expLane F c | .log => logLane F c

/-- A table entry: element size in bytes and bits, the vector and the scalar function (/repo/src/atop/ops_trig.cpp 584-599, 703-710, 731-738). -/
structure TrigFunc where
  bits : Nat
  vec : BitVec bits → BitVec bits
  sca : BitVec bits → BitVec bits

/-- `f true` is applied by the vector loop, `f false` by the scalar loop (/repo/src/atop/ops_trig.cpp 261, 273, 280). -/
def TrigFunc.f (e : TrigFunc) (b : Bool) : BitVec e.bits → BitVec e.bits := if b then e.vec else e.sca

/-- Operation codes of the functions with a vector version (/repo/src/atop/ops_trig.cpp 584-599, 703-710, 731-738). -/
def tfnOf : Op → Option TFn
  | .SIN => some .sin | .COS => some .cos | .EXP => some .exp | .LOG => some .log | _ => none

/-- `GetTrigOpFast(func, t)` without MSVC (/repo/src/atop/ops_trig.cpp 579-781). -/
def trigOpFast (F : FloatUnit) (L : Libm) (cv : Cvt) (op : Op) (t : DT) : Option TrigFunc :=
  match tfnOf op, t with
  | some f, .f32 => some ⟨32, vecFn F (ps cv.tt cv.epi) f, L.fn f 32⟩
  | some f, .f64 => some ⟨64, vecFn F (pd F) f, L.fn f 64⟩
  | _, _ => none

end Pnumpy.Trig
