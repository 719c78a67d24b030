/-
The workspace allocator `FmAlloc`/`FmFree` (src/atop/atop.cpp:17-63) on top of malloc/free.

Memory is seen through 8-byte words (`mem a` is the word stored at address `a`); a store changes the
words it overlaps arbitrarily (`junk`), so nothing is assumed about alignment of stores.
-/
namespace Pnumpy.Alloc

/-- `MAGIC_PAGE_GUARD` (atop.cpp:23). -/
@[irreducible] def MAGIC : Nat := 0xDEADBEEFDEADBEEF

/-- Memory, live malloc regions and the statistics counters of src/atop/atop.cpp:17-21. -/
structure St where
  mem : Nat → Nat
  /-- regions malloc handed out and that were not freed: address, size -/
  heap : List (Nat × Nat)
  /-- `g_TotalAllocs`, `g_TotalFree`, `g_TotalMemoryAllocated`, `g_TotalMemoryFreed` (atop.cpp:17-21) -/
  allocs : Nat
  frees : Nat
  bytesAllocated : Nat
  bytesFreed : Nat
  /-- number of "no page guard" messages -/
  errors : Nat

/-- An 8-byte store at `a` (the two stores of src/atop/atop.cpp:31-32). -/
def store (mem : Nat → Nat) (junk : Nat → Nat) (a v : Nat) : Nat → Nat :=
  fun x => if x = a then v else if x + 8 ≤ a ∨ a + 8 ≤ x then mem x else junk x

/-- The number of bytes requested from malloc: `_Size + 16` in `size_t` (atop.cpp:27). -/
def request (size : Nat) : Nat := (size + 16) % 2 ^ 64

/-- `FmAlloc` when malloc returned `base` (atop.cpp:25-41); gives the block returned. -/
def fmAlloc (s : St) (size base : Nat) (junk junk' : Nat → Nat) : Nat × St :=
  (base + 16,
    { s with
      heap := (base, request size) :: s.heap
      allocs := s.allocs + 1
      bytesAllocated := s.bytesAllocated + size
      mem := store (store s.mem junk base size) junk' (base + 8) MAGIC })

/-- The address `FmFree(block)` passes to free (atop.cpp:50-52, 62). -/
def freed (block : Nat) : Nat := block - 16

/-- `FmFree` of a non-null block (atop.cpp:43-63).  `free` removes the region that starts at the address
passed (`eraseP`; freeing an address that is no live region is an error of the C library: `none`). -/
def fmFree (s : St) (block : Nat) (junk : Nat → Nat) : Option St :=
  let base := freed block
  if s.heap.any (fun r => r.1 == base) then
    let ok := s.mem (base + 8) = MAGIC
    some { s with
      heap := s.heap.eraseP (fun r => r.1 == base)
      frees := s.frees + 1
      bytesFreed := if ok then s.bytesFreed + s.mem base else s.bytesFreed
      errors := if ok then s.errors else s.errors + 1
      mem := if ok then store s.mem junk (base + 8) 0 else s.mem }
  else none

end Pnumpy.Alloc
