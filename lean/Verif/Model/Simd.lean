/-
x86 SIMD registers as bit vectors and the intrinsics used by the comparison and classification
kernels.  A register of `N` bits is a `BitVec N`; lane `d` of width `w` are bits `w*d .. w*d+w-1`
(little endian, as in memory).  The intrinsics follow the Intel documentation; they are not part of
/repo, only their uses are.
-/
namespace Pnumpy.Simd

/-- Lane `d` of width `w` (lanes of the registers in src/atop/ops_compare.cpp:89-362). -/
def lane {N : Nat} (w : Nat) (r : BitVec N) (d : Nat) : BitVec w := r.extractLsb' (w * d) w

/-- Bit vector of `N` bits given bit by bit, lowest first (registers in src/atop/ops_compare.cpp:89-362). -/
def ofBits : (N : Nat) → (Nat → Bool) → BitVec N
  | 0, _ => 0
  | N + 1, f => BitVec.cons (f N) (ofBits N f)

/-- Register built from its lanes of width `w` (registers in src/atop/ops_compare.cpp:89-362). -/
def ofLanes (N w : Nat) (f : Nat → BitVec w) : BitVec N :=
  ofBits N fun i => (f (i / w)).getLsbD (i % w)

/-- `LOADU`: the `N/k` elements of a `k`-bit array starting at element `p`
(/repo/src/atop/ops_compare.cpp 56-66). -/
def load (N : Nat) {k : Nat} (xs : Nat → BitVec k) (p : Nat) : BitVec N :=
  ofLanes N k fun d => xs (p + d)

/-- `MM_SET` / `_mm256_set1_*` (/repo/src/atop/ops_compare.cpp 26-36). -/
def set1 (N : Nat) {k : Nat} (v : BitVec k) : BitVec N := ofLanes N k fun _ => v

/-- A comparison instruction: all ones in the lanes where `p` holds (src/atop/ops_compare.cpp:125-362). -/
def cmpLanes {N : Nat} (w : Nat) (p : BitVec w → BitVec w → Bool) (x y : BitVec N) : BitVec N :=
  ofLanes N w fun d => if p (lane w x d) (lane w y d) then BitVec.allOnes w else 0

/-- `_mm256_cmpeq_epi{8,16,32,64}` (e.g. src/atop/ops_compare.cpp:128). -/
def cmpeq {N : Nat} (w : Nat) (x y : BitVec N) : BitVec N := cmpLanes w (fun a b => a == b) x y
/-- `_mm256_cmpgt_epi{8,16,32,64}` (signed) (e.g. src/atop/ops_compare.cpp:156). -/
def cmpgt {N : Nat} (w : Nat) (x y : BitVec N) : BitVec N := cmpLanes w (fun a b => b.slt a) x y

/-- `_mm256_min_epu8` (e.g. src/atop/ops_compare.cpp:318). -/
def minEpu8 {N : Nat} (x y : BitVec N) : BitVec N :=
  ofLanes N 8 fun d => if (lane 8 x d).ult (lane 8 y d) then lane 8 x d else lane 8 y d

/-- Signed saturation of 32 to 16 bits (e.g. src/atop/ops_compare.cpp:210). -/
def sat16 (v : BitVec 32) : BitVec 16 :=
  if v.slt (-32768) then 0x8000 else if (32767 : BitVec 32).slt v then 0x7FFF else v.setWidth 16
/-- Signed saturation of 16 to 8 bits (e.g. src/atop/ops_compare.cpp:225). -/
def sat8 (v : BitVec 16) : BitVec 8 :=
  if v.slt (-128) then 0x80 else if (127 : BitVec 16).slt v then 0x7F else v.setWidth 8

/-- `_mm256_packs_epi32` / `_mm_packs_epi32`: within each 128-bit half, 4 dwords of `x` then 4 of `y` (e.g. src/atop/ops_compare.cpp:210). -/
def packs32 {N : Nat} (x y : BitVec N) : BitVec N :=
  ofLanes N 16 fun j =>
    sat16 (if j % 8 < 4 then lane 32 x (4 * (j / 8) + j % 8) else lane 32 y (4 * (j / 8) + (j % 8 - 4)))
/-- `_mm256_packs_epi16` / `_mm_packs_epi16` (e.g. src/atop/ops_compare.cpp:225). -/
def packs16 {N : Nat} (x y : BitVec N) : BitVec N :=
  ofLanes N 8 fun j =>
    sat8 (if j % 16 < 8 then lane 16 x (8 * (j / 16) + j % 16) else lane 16 y (8 * (j / 16) + (j % 16 - 8)))

/-- `_mm256_shuffle_epi8`: within each 128-bit half; an index byte with its top bit set gives 0 (e.g. src/atop/ops_compare.cpp:128). -/
def shuffle8 {N : Nat} (x idx : BitVec N) : BitVec N :=
  ofLanes N 8 fun j =>
    if (lane 8 idx j).msb then 0 else lane 8 x (16 * (j / 16) + (lane 8 idx j).toNat % 16)

/-- `_mm256_permutevar8x32_epi32` (e.g. src/atop/ops_compare.cpp:134). -/
def permute32 (x idx : BitVec 256) : BitVec 256 :=
  ofLanes 256 32 fun j => lane 32 x ((lane 32 idx j).toNat % 8)

/-- `_mm256_set_epi8`, arguments highest byte first (e.g. src/atop/ops_compare.cpp:89). -/
def setEpi8 (l : List Nat) : BitVec 256 := ofLanes 256 8 fun j => BitVec.ofNat 8 (l.getD (31 - j) 0)
/-- `_mm256_set_epi32`, arguments highest dword first (e.g. src/atop/ops_compare.cpp:118). -/
def setEpi32 (l : List Nat) : BitVec 256 := ofLanes 256 32 fun j => BitVec.ofNat 32 (l.getD (7 - j) 0)

/-- `_mm256_extracti128_si256` (e.g. src/atop/ops_compare.cpp:226). -/
def extract128 (x : BitVec 256) (h : Nat) : BitVec 128 := lane 128 x h
/-- `_mm256_inserti128_si256` (e.g. src/atop/ops_compare.cpp:330). -/
def insert128 (x : BitVec 256) (v : BitVec 128) (h : Nat) : BitVec 256 :=
  ofLanes 256 128 fun d => if d = h then v else lane 128 x d

/-- `_mm256_movemask_ps` (`w = 32`, 8 bits) and `_mm256_movemask_pd` (`w = 64`, 4 bits) (e.g. src/atop/ops_compare.cpp:184). -/
def movemask {N : Nat} (w n : Nat) (x : BitVec N) : BitVec n :=
  ofBits n fun i => (lane w x i).msb

end Pnumpy.Simd
