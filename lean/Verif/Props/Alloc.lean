import Verif.Model.Alloc
import Verif.Spec.Alloc
import Mathlib.Tactic.SplitIfs
/-
C39: the workspace allocator.
-/
namespace Pnumpy.Props
open Pnumpy.Spec Pnumpy.Alloc

/-- Histories: the allocator and a caller that stores only inside blocks it owns and frees only those.
`blocks` are the caller's live blocks (address and size as requested). -/
inductive AllocHist : St → List (Nat × Nat) → Prop where
  | start (mem : Nat → Nat) : AllocHist ⟨mem, [], 0, 0, 0, 0, 0⟩ []
  /-- a request below 2^64 - 16 bytes; malloc succeeds with any address its contract allows -/
  | alloc (s bl size base j1 j2) (h : AllocHist s bl) (hsize : size + 16 < 2 ^ 64) (hm : mallocOk s.heap base (size + 16)) :
      AllocHist (fmAlloc s size base j1 j2).2 (((fmAlloc s size base j1 j2).1, size) :: bl)
  /-- an 8-byte store inside an owned block -/
  | write (s bl b n a v j) (h : AllocHist s bl) (hb : (b, n) ∈ bl) (hlo : b ≤ a) (hhi : a + 8 ≤ b + n) :
      AllocHist { s with mem := store s.mem j a v } bl
  /-- freeing an owned block -/
  | free (s s' bl b n j) (h : AllocHist s bl) (hb : (b, n) ∈ bl) (hf : fmFree s b j = some s') :
      AllocHist s' (bl.erase (b, n))

private structure Inv (s : St) (bl : List (Nat × Nat)) : Prop where
  /-- the blocks are the regions, 16 bytes in -/
  heap : s.heap = bl.map fun r => (r.1 - 16, r.2 + 16)
  align : ∀ r ∈ bl, r.1 % 16 = 0 ∧ 32 ≤ r.1
  apart : bl.Pairwise fun r q => Spec.apart (r.1 - 16) (r.2 + 16) (q.1 - 16) (q.2 + 16)
  size : ∀ r ∈ bl, s.mem (r.1 - 16) = r.2
  guard : ∀ r ∈ bl, s.mem (r.1 - 8) = MAGIC
  count : s.allocs = s.frees + bl.length
  bytes : s.bytesAllocated = s.bytesFreed + (bl.map Prod.snd).sum
  noerr : s.errors = 0

private theorem store_other {mem j : Nat → Nat} {a v x : Nat} (h : x + 8 ≤ a ∨ a + 8 ≤ x) : store mem j a v x = mem x := by
  unfold store
  rw [if_neg (by omega), if_pos h]

private theorem store_self {mem j : Nat → Nat} {a v : Nat} : store mem j a v a = v := by simp [store]

private theorem pair_mem {l : List (Nat × Nat)} (h : l.Pairwise fun r q => Spec.apart (r.1 - 16) (r.2 + 16) (q.1 - 16) (q.2 + 16))
    {r q : Nat × Nat} (hr : r ∈ l) (hq : q ∈ l) : r = q ∨ Spec.apart (r.1 - 16) (r.2 + 16) (q.1 - 16) (q.2 + 16) := by
  induction l with
  | nil => cases hr
  | cons x t ih =>
    rw [List.pairwise_cons] at h
    rcases List.mem_cons.1 hr with rfl | hr <;> rcases List.mem_cons.1 hq with rfl | hq
    · exact Or.inl rfl
    · exact Or.inr (h.1 q hq)
    · right; have := h.1 r (by assumption); unfold Spec.apart at *; omega
    · exact ih h.2 hr hq

private theorem eraseP_map (l : List (Nat × Nat)) (b n : Nat) (hmem : (b, n) ∈ l) (halign : ∀ r ∈ l, 32 ≤ r.1)
    (h : l.Pairwise fun r q => Spec.apart (r.1 - 16) (r.2 + 16) (q.1 - 16) (q.2 + 16)) :
    (l.map fun r => (r.1 - 16, r.2 + 16)).eraseP (fun r => r.1 == b - 16) = (l.erase (b, n)).map fun r => (r.1 - 16, r.2 + 16) := by
  induction l with
  | nil => cases hmem
  | cons x t ih =>
    rw [List.pairwise_cons] at h
    by_cases hx : x = (b, n)
    · subst hx; simp
    · have hm : (b, n) ∈ t := by
        rcases List.mem_cons.1 hmem with e | e
        · exact absurd e.symm hx
        · exact e
      have hne : ¬ (x.1 - 16 = b - 16) := by
        have := h.1 _ hm
        unfold Spec.apart at this
        simp only at this
        omega
      rw [List.map_cons, List.eraseP_cons_of_neg (by simpa using hne), List.erase_cons_tail (by simpa using hx), List.map_cons,
        ih hm (fun r hr => halign r (List.mem_cons_of_mem _ hr)) h.2]

private theorem sum_erase (l : List (Nat × Nat)) (b n : Nat) (h : (b, n) ∈ l) :
    (l.map Prod.snd).sum = n + ((l.erase (b, n)).map Prod.snd).sum := by
  induction l with
  | nil => cases h
  | cons x t ih =>
    by_cases hx : x = (b, n)
    · subst hx; simp
    · have hm : (b, n) ∈ t := by
        rcases List.mem_cons.1 h with e | e
        · exact absurd e.symm hx
        · exact e
      rw [List.erase_cons_tail (by simpa using hx), List.map_cons, List.map_cons, List.sum_cons, List.sum_cons, ih hm]
      omega

private theorem inv_of (s : St) (bl : List (Nat × Nat)) (h : AllocHist s bl) : Inv s bl := by
  induction h with
  | start mem => exact ⟨rfl, by simp, List.Pairwise.nil, by simp, by simp, rfl, rfl, rfl⟩
  | alloc s bl size base j1 j2 h hsize hm ih =>
    obtain ⟨ha, hpos, hap⟩ := hm
    have hap' : ∀ r ∈ bl, Spec.apart base (size + 16) (r.1 - 16) (r.2 + 16) := by
      intro r hr
      exact hap (r.1 - 16, r.2 + 16) (by rw [ih.heap]; exact List.mem_map.2 ⟨r, hr, rfl⟩)
    have hother : ∀ r ∈ bl, ∀ x, (x = r.1 - 16 ∨ x = r.1 - 8) →
        store (store s.mem j1 base size) j2 (base + 8) MAGIC x = s.mem x := by
      intro r hr x hx
      have h1 := hap' r hr
      have h2 := (ih.align r hr).2
      unfold Spec.apart at h1
      rw [store_other (by omega), store_other (by omega)]
    refine ⟨?_, ?_, ?_, ?_, ?_, ?_, ?_, ?_⟩
    · show (base, request size) :: s.heap = _
      rw [ih.heap]
      simp only [fmAlloc, List.map_cons, request, Nat.mod_eq_of_lt hsize]
      rfl
    · intro r hr
      rcases List.mem_cons.1 hr with rfl | hr
      · simp only [fmAlloc]; omega
      · exact ih.align r hr
    · rw [List.pairwise_cons]
      refine ⟨?_, ih.apart⟩
      intro r hr
      simpa [fmAlloc] using hap' r hr
    · intro r hr
      rcases List.mem_cons.1 hr with rfl | hr
      · show store (store s.mem j1 base size) j2 (base + 8) MAGIC (base + 16 - 16) = size
        rw [show base + 16 - 16 = base by omega, store_other (by omega), store_self]
      · show store (store s.mem j1 base size) j2 (base + 8) MAGIC (r.1 - 16) = _
        rw [hother r hr _ (Or.inl rfl)]; exact ih.size r hr
    · intro r hr
      rcases List.mem_cons.1 hr with rfl | hr
      · show store (store s.mem j1 base size) j2 (base + 8) MAGIC (base + 16 - 8) = MAGIC
        rw [show base + 16 - 8 = base + 8 by omega, store_self]
      · show store (store s.mem j1 base size) j2 (base + 8) MAGIC (r.1 - 8) = _
        rw [hother r hr _ (Or.inr rfl)]; exact ih.guard r hr
    · have := ih.count
      simp only [fmAlloc, List.length_cons]; omega
    · have := ih.bytes
      simp only [fmAlloc, List.map_cons, List.sum_cons]; omega
    · exact ih.noerr
  | write s bl b n a v j h hb hlo hhi ih =>
    have hout : ∀ r ∈ bl, ∀ x, (x = r.1 - 16 ∨ x = r.1 - 8) → store s.mem j a v x = s.mem x := by
      intro r hr x hx
      have h2 := (ih.align r hr).2
      refine store_other ?_
      rcases pair_mem ih.apart hr hb with e | e
      · subst e; omega
      · unfold Spec.apart at e
        simp only at e
        have h3 := (ih.align _ hb).2
        simp only at h3
        omega
    refine ⟨ih.heap, ih.align, ih.apart, ?_, ?_, ih.count, ih.bytes, ih.noerr⟩
    · intro r hr; show store s.mem j a v _ = _; rw [hout r hr _ (Or.inl rfl)]; exact ih.size r hr
    · intro r hr; show store s.mem j a v _ = _; rw [hout r hr _ (Or.inr rfl)]; exact ih.guard r hr
  | free s s' bl b n j h hb hf ih =>
    have hal := ih.align _ hb
    simp only at hal
    have hg : s.mem (freed b + 8) = MAGIC := by
      have := ih.guard _ hb
      simp only at this
      rw [show freed b + 8 = b - 8 by unfold freed; omega]; exact this
    have hsz : s.mem (freed b) = n := by
      have := ih.size (b, n) hb
      unfold freed; exact this
    unfold fmFree at hf
    simp only at hf
    split at hf
    · injection hf with hf
      subst hf
      have hsub : ∀ r ∈ bl.erase (b, n), r ∈ bl := fun r hr => List.mem_of_mem_erase hr
      have hnot : ∀ r ∈ bl.erase (b, n), Spec.apart (r.1 - 16) (r.2 + 16) (b - 16) (n + 16) := by
        intro r hr
        rcases pair_mem ih.apart (hsub r hr) hb with e | e
        · exfalso
          subst e
          -- the list has no duplicates, since a block is not apart from itself
          have hnd : bl.Nodup := by
            refine List.Pairwise.imp (fun {p q} hpq => ?_) ih.apart
            rintro rfl
            unfold Spec.apart at hpq; omega
          exact (List.Nodup.not_mem_erase hnd) hr
        · exact e
      have hmem : ∀ r ∈ bl.erase (b, n), ∀ x, (x = r.1 - 16 ∨ x = r.1 - 8) → store s.mem j (freed b + 8) 0 x = s.mem x := by
        intro r hr x hx
        have h1 := hnot r hr
        have h2 := (ih.align r (hsub r hr)).2
        unfold Spec.apart at h1
        refine store_other ?_
        unfold freed
        omega
      refine ⟨?_, ?_, ?_, ?_, ?_, ?_, ?_, ?_⟩
      · show s.heap.eraseP _ = _
        rw [ih.heap]
        exact eraseP_map bl b n hb (fun r hr => (ih.align r hr).2) ih.apart
      · exact fun r hr => ih.align r (hsub r hr)
      · exact ih.apart.sublist List.erase_sublist
      · intro r hr; simp only [if_pos hg]; rw [hmem r hr _ (Or.inl rfl)]; exact ih.size r (hsub r hr)
      · intro r hr; simp only [if_pos hg]; rw [hmem r hr _ (Or.inr rfl)]; exact ih.guard r (hsub r hr)
      · have := ih.count
        have hl := List.length_erase_of_mem hb
        have hpos : 0 < bl.length := List.length_pos_of_mem hb
        simp only; omega
      · have := ih.bytes
        have hs := sum_erase bl b n hb
        simp only [if_pos hg, hsz]; omega
      · simp only [if_pos hg]; exact ih.noerr
    · cases hf

/-- C39: in every history, every live workspace block is 16-byte aligned and lies inside the region malloc
gave for it (whose address is what freeing the block passes to free), and different blocks do not overlap. -/
theorem C39_blocks_partial (s : St) (bl : List (Nat × Nat)) (h : AllocHist s bl) :
    (∀ r ∈ bl, r.1 % 16 = 0 ∧ ∃ q ∈ s.heap, freed r.1 = q.1 ∧ q.1 ≤ r.1 ∧ r.1 + r.2 ≤ q.1 + q.2) ∧
      bl.Pairwise (fun r q => apart r.1 r.2 q.1 q.2) ∧ s.heap.length = bl.length := by
  have hi := inv_of s bl h
  refine ⟨fun r hr => ⟨(hi.align r hr).1, (r.1 - 16, r.2 + 16), ?_, rfl, ?_, ?_⟩, ?_, ?_⟩
  · rw [hi.heap]; exact List.mem_map.2 ⟨r, hr, rfl⟩
  · show r.1 - 16 ≤ r.1; omega
  · have := (hi.align r hr).2
    show r.1 + r.2 ≤ r.1 - 16 + (r.2 + 16); omega
  · have hal := hi.align
    refine List.Pairwise.imp_of_mem (fun {r q} hr hq hpq => ?_) hi.apart
    have h1 := (hal r hr).2
    have h2 := (hal q hq).2
    unfold apart at *
    omega
  · rw [hi.heap, List.length_map]

/-- Case: one block of 24 bytes at 48 (allocated at 32). -/
example : ∃ s, AllocHist s [(48, 24)] ∧ ∃ q ∈ s.heap, freed 48 = q.1 ∧ 48 + 24 ≤ q.1 + q.2 := by
  have h := AllocHist.alloc _ _ 24 32 (fun _ => 7) (fun _ => 7) (AllocHist.start (fun _ => 0)) (by decide) ⟨by decide, by decide, by simp⟩
  obtain ⟨_, q, hq, h1, _, h2⟩ := (C39_blocks_partial _ _ h).1 _ (List.mem_cons_self ..)
  exact ⟨_, h, q, hq, h1, h2⟩

/-- C39: in every history, freeing an owned block succeeds, finds the guard intact, and gives back
exactly the region of that block: the other regions stay. -/
theorem C39_free_exact (s : St) (bl : List (Nat × Nat)) (h : AllocHist s bl) (b n : Nat) (hb : (b, n) ∈ bl) (j : Nat → Nat) :
    ∃ s', fmFree s b j = some s' ∧ s'.errors = 0 ∧ s.heap.Perm ((freed b, n + 16) :: s'.heap) ∧
      s'.bytesFreed = s.bytesFreed + n := by
  have hi := inv_of s bl h
  have hany : s.heap.any (fun r => r.1 == freed b) = true := by
    rw [List.any_eq_true]
    exact ⟨(b - 16, n + 16), by rw [hi.heap]; exact List.mem_map.2 ⟨_, hb, rfl⟩, by simp [freed]⟩
  obtain ⟨s', hs'⟩ : ∃ s', fmFree s b j = some s' := by
    unfold fmFree; simp only [hany, if_true]; exact ⟨_, rfl⟩
  have hi' := inv_of s' _ (AllocHist.free s s' bl b n j h hb hs')
  refine ⟨s', hs', hi'.noerr, ?_, ?_⟩
  · rw [hi.heap, hi'.heap]
    have := (List.perm_cons_erase hb).map (fun r : Nat × Nat => (r.1 - 16, r.2 + 16))
    simpa [freed] using this
  · have h1 := hi.bytes
    have h2 := hi'.bytes
    have hs := sum_erase bl b n hb
    have hba : s'.bytesAllocated = s.bytesAllocated := by
      unfold fmFree at hs'; simp only [hany, if_true] at hs'
      injection hs' with e; rw [← e]
    omega

/-- C39: a block whose guard word has been overwritten (a store 8 bytes before the block) is reported once when it is freed; its
region is still given back, its bytes are not counted as freed and no memory is changed. -/
theorem C39_damaged_guard (s : St) (bl : List (Nat × Nat)) (h : AllocHist s bl) (b n v : Nat) (hb : (b, n) ∈ bl) (hv : v ≠ MAGIC)
    (j k : Nat → Nat) :
    ∃ s', fmFree { s with mem := store s.mem k (b - 8) v } b j = some s' ∧ s'.errors = 1 ∧ s'.frees = s.frees + 1 ∧
      s'.bytesFreed = s.bytesFreed ∧ s'.mem = store s.mem k (b - 8) v ∧ s.heap.Perm ((freed b, n + 16) :: s'.heap) := by
  have hi := inv_of s bl h
  obtain ⟨t, ht, _, hp, _⟩ := C39_free_exact s bl h b n hb j
  have hany : s.heap.any (fun r => r.1 == freed b) = true := by
    rw [List.any_eq_true]
    exact ⟨(b - 16, n + 16), by rw [hi.heap]; exact List.mem_map.2 ⟨_, hb, rfl⟩, by simp [freed]⟩
  have h16 : 32 ≤ b := (hi.align (b, n) hb).2
  have hm : store s.mem k (b - 8) v (freed b + 8) ≠ MAGIC := by
    have : freed b + 8 = b - 8 := by unfold freed; omega
    rw [this]; simpa [store] using hv
  have ht' : t.heap = s.heap.eraseP (fun r => r.1 == freed b) := by
    unfold fmFree at ht; simp only [hany, if_true] at ht; injection ht with e; rw [← e]
  unfold fmFree
  simp only [hany, if_true, hm, if_false]
  refine ⟨_, rfl, ?_, rfl, rfl, rfl, ?_⟩
  · show s.errors + 1 = 1; rw [hi.noerr]
  · rw [← ht']; exact hp

/-- Case: the guard of a block of 24 bytes at 48 is overwritten by 5. -/
example : ∃ s s', AllocHist s [(48, 24)] ∧ fmFree { s with mem := store s.mem (fun _ => 7) (48 - 8) 5 } 48 (fun _ => 7) = some s' ∧ s'.errors = 1 := by
  have h := AllocHist.alloc _ _ 24 32 (fun _ => 7) (fun _ => 7) (AllocHist.start (fun _ => 0)) (by decide) ⟨by decide, by decide, by simp⟩
  obtain ⟨s', h1, h2, _⟩ := C39_damaged_guard _ _ h 48 24 5 (List.mem_cons_self ..) (by unfold MAGIC; decide) (fun _ => 7) (fun _ => 7)
  exact ⟨_, s', h, h1, h2⟩

/-- C39: the counters are exact: what is allocated minus what is freed is what is live. -/
theorem C39_counters (s : St) (bl : List (Nat × Nat)) (h : AllocHist s bl) :
    s.allocs = s.frees + bl.length ∧ s.bytesAllocated = s.bytesFreed + (bl.map Prod.snd).sum ∧ s.errors = 0 := by
  have hi := inv_of s bl h
  exact ⟨hi.count, hi.bytes, hi.noerr⟩

/-- A history: two blocks, a store, one freed. -/
example : ∃ s bl, AllocHist s bl ∧ bl = [(80, 24)] := by
  have h1 := AllocHist.alloc _ _ 8 32 (fun _ => 7) (fun _ => 7) (AllocHist.start (fun _ => 0)) (by decide) ⟨by decide, by decide, by simp⟩
  have h2 := AllocHist.alloc _ _ 24 64 (fun _ => 7) (fun _ => 7) h1 (by decide) ⟨by decide, by decide, by simp [fmAlloc, apart, request]⟩
  have h3 := AllocHist.write _ _ 48 8 48 99 (fun _ => 7) h2 (by simp [fmAlloc]) (by decide) (by decide)
  obtain ⟨s', hs', _⟩ := C39_free_exact _ _ h3 48 8 (by simp [fmAlloc]) (fun _ => 7)
  exact ⟨_, _, AllocHist.free _ s' _ 48 8 _ h3 (by simp [fmAlloc]) hs', by decide⟩

/-- C39 is false for requests within 16 of 2^64: the sum wraps, so a small region is reserved for a
block of nearly 2^64 bytes (malloc would have refused it). -/
theorem C39_overflow_violated (size : Nat) (h1 : size < 2 ^ 64) (h2 : 2 ^ 64 ≤ size + 16) (s : St) (base : Nat) (j1 j2 : Nat → Nat) :
    ∃ m, (base, m) ∈ (fmAlloc s size base j1 j2).2.heap ∧ m < 16 ∧ m < size := by
  refine ⟨request size, by simp [fmAlloc], ?_, ?_⟩ <;> unfold request <;> omega

example : (2 ^ 64 - 3 : Nat) < 2 ^ 64 ∧ 2 ^ 64 ≤ (2 ^ 64 - 3 : Nat) + 16 := by decide

end Pnumpy.Props
