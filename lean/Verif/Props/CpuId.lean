import Verif.Model.CpuId
import Verif.Proofs.Hooks
/-
C101: what the import does on which processor, and what `cpustring()` says.
-/
namespace Pnumpy.Props
open Pnumpy.CpuId

/-- The processor has AVX2: bit 5 of EBX of leaf 7, which exists (Intel's manual). -/
def hasAvx2 (c : Cpu) : Prop := 7 ≤ (c 0).eax.toNat ∧ (c 7).ebx.getLsbD 5 = true

private theorem hasBit_eq (r : BitVec 32) (b : Nat) (hb : b < 32) : hasBit r b = r.getLsbD b := by
  unfold hasBit
  cases h : r.getLsbD b
  · rw [bne_eq_false_iff_eq]
    apply BitVec.eq_of_getLsbD_eq
    intro i hi
    simp only [BitVec.getLsbD_and, BitVec.getLsbD_shiftLeft, BitVec.getLsbD_one]
    by_cases hib : i = b
    · subst hib; simp [h]
    · have : i - b = 0 → i < b := by omega
      by_cases h1 : i < b
      · simp [h1]
      · have h2 : ¬ i - b = 0 := fun hx => h1 (this hx)
        simp [h2]
  · rw [bne_iff_ne]
    intro hx
    have := congrArg (fun v => v.getLsbD b) hx
    rw [BitVec.getLsbD_eq_getElem hb] at h
    simp [hb] at this
    simp_all

private theorem gAvx2_iff (c : Cpu) : gAvx2 c = true ↔ hasAvx2 c := by
  unfold gAvx2 hasAvx2 atopCpuid
  rw [hasBit_eq _ _ (by decide)]
  simp only
  split
  · rename_i h; simp [h]
  · rename_i h; simp [h]

/-- A processor: leaf 7 exists, AVX2 and BMI2 bits set, brand "ABCD…" in the extended leaves. -/
def cpuA : Cpu := fun leaf =>
  if leaf = 0 then ⟨13, 0, 0, 0⟩ else if leaf = 1 then ⟨0, 0, 0x7ffafbbf, 0xbfebfbff⟩ else if leaf = 7 then ⟨0, 0x29c6fbf, 0, 0⟩
  else if leaf = 0x80000000 then ⟨0x80000008, 0, 0, 0⟩ else if leaf = 0x80000002 then ⟨0x44434241, 0, 0, 0⟩ else ⟨0, 0, 0, 0⟩

theorem cpuA_avx2 : hasAvx2 cpuA := by unfold hasAvx2; decide

/-- **C101**: on a processor without AVX2 the import raises and no loop of numpy is replaced, whatever numpy knows about the processor. -/
theorem C101_no_avx2 (cfg : Hooks.Cfg) (c : Cpu) (feature : Option Bool) (h : ¬ hasAvx2 c) :
    (importPnumpy cfg c feature).1 = true ∧ ∀ o d, (importPnumpy cfg c feature).2.loops o d = .numpy o d := by
  have hg : gAvx2 c = false := by
    cases hx : gAvx2 c
    · rfl
    · exact absurd ((gAvx2_iff c).1 hx) h
  unfold importPnumpy
  split
  · refine ⟨by simp [hg], fun o d => ?_⟩
    simp [hg, Hooks.run, Hooks.step, Hooks.init]
  · exact ⟨rfl, fun o d => rfl⟩

/-- Case: an old processor whose leaf 7 does not exist, numpy 1.18. -/
example (cfg : Hooks.Cfg) : (importPnumpy cfg (fun _ => ⟨4, 0xffffffff, 0, 0⟩) none).1 = true := (C101_no_avx2 cfg _ none (by unfold hasAvx2; decide)).1

/-- **C101**: if numpy's table says truthfully whether AVX2 can be used (`usable`: the processor has it and the operating system keeps the registers), an import that
succeeds means it can; and then the loops are installed. -/
theorem C101_import_partial (cfg : Hooks.Cfg) (c : Cpu) (feature usable : Bool) (htrue : feature = usable) (hu : usable = true → hasAvx2 c) :
    ((importPnumpy cfg c (some feature)).1 = false ↔ usable = true) ∧
    ((importPnumpy cfg c (some feature)).1 = false → (importPnumpy cfg c (some feature)).2 = Hooks.run { cfg with avx2 := true } [.doInit]) := by
  subst htrue
  cases feature with
  | false => exact ⟨by simp [importPnumpy, pythonGate], by simp [importPnumpy, pythonGate]⟩
  | true =>
    have hg := (gAvx2_iff c).2 (hu rfl)
    exact ⟨by simp [importPnumpy, pythonGate, hg], by simp [importPnumpy, pythonGate, hg]⟩

/-- Case: the processor above, AVX2 usable. -/
example (cfg : Hooks.Cfg) : (importPnumpy cfg cpuA (some true)).1 = false := ((C101_import_partial cfg cpuA true true rfl (fun _ => cpuA_avx2)).1).2 rfl

/-- C101 is false with a numpy that has no feature table (1.18): only the processor is asked (pnumpy never looks at the operating system's bits OSXSAVE and XCR0), so
the loops are installed also if the operating system has not enabled the AVX registers (`usable` false), where the first of them ends in an illegal instruction. -/
theorem C101_os_violated (cfg : Hooks.Cfg) (c : Cpu) (h : hasAvx2 c) (usable : Bool) (hu : usable = false) :
    (importPnumpy cfg c none).1 = false ∧ ¬ ((importPnumpy cfg c none).1 = false ↔ usable = true) ∧
      (importPnumpy cfg c none).2 = Hooks.run { cfg with avx2 := true } [.doInit] := by
  have hg := (gAvx2_iff c).2 h
  subst hu
  exact ⟨by simp [importPnumpy, pythonGate, hg], by simp [importPnumpy, pythonGate, hg], by simp [importPnumpy, pythonGate, hg]⟩

example (cfg : Hooks.Cfg) : (importPnumpy cfg cpuA none).1 = false := (C101_os_violated cfg cpuA cpuA_avx2 false rfl).1

/-! ### cpustring() -/

private theorem regBytes_length (r : Regs) : (regBytes r).length = 16 := by simp [regBytes]

private theorem fold_tail (c : Cpu) (buf : List (BitVec 8)) (k : Nat) :
    (List.range' 0x80000005 k).foldlM (brandStep c) buf = some buf := by
  have : ∀ l : List Nat, (∀ i ∈ l, 0x80000005 ≤ i) → l.foldlM (brandStep c) buf = some buf := by
    intro l
    induction l with
    | nil => intro _; rfl
    | cons a t ih =>
      intro h
      have ha := h a (by simp)
      have hs : brandStep c buf a = some buf := by
        unfold brandStep
        rw [if_neg (by omega), if_neg (by omega), if_neg (by omega)]
      rw [List.foldlM_cons, hs]
      exact ih (fun i hi => h i (by simp [hi]))
  apply this
  intro i hi
  have := List.mem_range'_1.1 hi
  omega

/-- **C101**: the brand string is the 48 bytes of leaves 80000002h to 80000004h followed by zero bytes, if the processor has these leaves; the loop stays inside its
64 bytes and ends. -/
theorem C101_brand (c : Cpu) (h : 0x80000004 ≤ (c 0x80000000).eax.toNat) (h' : (c 0x80000000).eax.toNat < 2 ^ 32 - 1) :
    brand c = some (regBytes (c 0x80000002) ++ regBytes (c 0x80000003) ++ regBytes (c 0x80000004) ++ List.replicate 16 0) := by
  unfold brand
  simp only
  rw [if_neg (by omega)]
  generalize (c 0x80000000).eax.toNat = n at h
  obtain ⟨k, rfl⟩ : ∃ k, n = 0x80000004 + k := ⟨n - 0x80000004, by omega⟩
  have e : 0x80000004 + k + 1 - 0x80000000 = 5 + k := by omega
  rw [e, ← List.range'_append_1, List.foldlM_append]
  have r5 : List.range' 0x80000000 5 = [0x80000000, 0x80000001, 0x80000002, 0x80000003, 0x80000004] := rfl
  rw [r5]
  have l2 := regBytes_length (c 0x80000002)
  have l3 := regBytes_length (c 0x80000003)
  have l4 := regBytes_length (c 0x80000004)
  have s0 : ∀ buf, brandStep c buf 0x80000000 = some buf := fun buf => by unfold brandStep; rw [if_neg (by decide), if_neg (by decide), if_neg (by decide)]
  have s1 : ∀ buf, brandStep c buf 0x80000001 = some buf := fun buf => by unfold brandStep; rw [if_neg (by decide), if_neg (by decide), if_neg (by decide)]
  have s2 : ∀ buf, brandStep c buf 0x80000002 = writeAt buf 0 (regBytes (c 0x80000002)) := fun buf => by unfold brandStep; rw [if_pos rfl]
  have s3 : ∀ buf, brandStep c buf 0x80000003 = writeAt buf 16 (regBytes (c 0x80000003)) := fun buf => by
    unfold brandStep; rw [if_neg (by decide), if_pos rfl]
  have s4 : ∀ buf, brandStep c buf 0x80000004 = writeAt buf 32 (regBytes (c 0x80000004)) := fun buf => by
    unfold brandStep; rw [if_neg (by decide), if_neg (by decide), if_pos rfl]
  generalize regBytes (c 0x80000002) = A at *
  generalize regBytes (c 0x80000003) = B at *
  generalize regBytes (c 0x80000004) = C at *
  have w2 : writeAt (List.replicate 64 0) 0 A = some (A ++ List.replicate 48 0) := by
    unfold writeAt; rw [if_pos (by simp [l2])]; simp [l2]
  have w3 : writeAt (A ++ List.replicate 48 0) 16 B = some (A ++ (B ++ List.replicate 32 0)) := by
    unfold writeAt
    rw [if_pos (by simp [l2, l3])]
    rw [List.take_append_of_le_length (by omega), List.take_of_length_le (by omega), List.drop_append, List.drop_of_length_le (by omega)]
    simp [l2, l3]
  have w4 : writeAt (A ++ (B ++ List.replicate 32 0)) 32 C = some (A ++ B ++ C ++ List.replicate 16 0) := by
    unfold writeAt
    rw [← List.append_assoc A B]
    rw [if_pos (by simp [l2, l3, l4])]
    rw [List.take_append_of_le_length (by simp [l2, l3]), List.take_of_length_le (by simp [l2, l3]), List.drop_append, List.drop_of_length_le (by simp [l2, l3, l4])]
    simp [l2, l3, l4]
  simp only [List.foldlM_cons, List.foldlM_nil, s0, s1, s2, s3, s4, w2, Option.bind_eq_bind, Option.bind_some, w3, w4, Option.pure_def]
  exact fold_tail c _ _

/-- Case: the processor above. -/
example : brand cpuA = some (regBytes (cpuA 0x80000002) ++ regBytes (cpuA 0x80000003) ++ regBytes (cpuA 0x80000004) ++ List.replicate 16 0) :=
  C101_brand _ (by decide) (by decide)

/-- The text `f 0 … f 47` as the processor gives it (Intel's manual, leaves 80000002h to 80000004h): sixteen characters per leaf, four per register in the order
EAX, EBX, ECX, EDX, the first in the lowest byte. -/
def Tells (c : Cpu) (f : Nat → BitVec 8) : Prop :=
  ∀ k, k < 3 → let r := c (0x80000002 + k)
    r.eax = f (16 * k + 3) ++ f (16 * k + 2) ++ f (16 * k + 1) ++ f (16 * k) ∧
    r.ebx = f (16 * k + 7) ++ f (16 * k + 6) ++ f (16 * k + 5) ++ f (16 * k + 4) ∧
    r.ecx = f (16 * k + 11) ++ f (16 * k + 10) ++ f (16 * k + 9) ++ f (16 * k + 8) ∧
    r.edx = f (16 * k + 15) ++ f (16 * k + 14) ++ f (16 * k + 13) ++ f (16 * k + 12)

private theorem bytes_of (a b c d : BitVec 8) : let x : BitVec 32 := d ++ c ++ b ++ a
    [x.extractLsb' 0 8, x.extractLsb' 8 8, x.extractLsb' 16 8, x.extractLsb' 24 8] = [a, b, c, d] := by
  have h : ∀ (x y : BitVec 8), x = y ↔ ∀ i, i < 8 → x.getLsbD i = y.getLsbD i := fun x y =>
    ⟨fun e i _ => by rw [e], fun e => BitVec.eq_of_getLsbD_eq e⟩
  simp only [List.cons.injEq, and_true]
  refine ⟨?_, ?_, ?_, ?_⟩ <;> (rw [h]; intro i hi; simp only [BitVec.getLsbD_extractLsb', BitVec.getLsbD_append, hi, decide_true, Bool.true_and])
  · rw [if_pos (by omega)]; simp
  · rw [if_neg (by omega), if_pos (by omega)]; simp
  · rw [if_neg (by omega), if_neg (by omega), if_pos (by omega)]; congr 1; omega
  · rw [if_neg (by omega), if_neg (by omega), if_neg (by omega)]; congr 1; omega

/-- What a hexadecimal digit means: '0'…'9', 'a'…'f'. -/
def digitOf (ch : BitVec 8) : Option Nat :=
  if 48 ≤ ch.toNat ∧ ch.toNat ≤ 57 then some (ch.toNat - 48) else if 97 ≤ ch.toNat ∧ ch.toNat ≤ 102 then some (ch.toNat - 87) else none

/-- Reading a hexadecimal number. -/
def readHex (l : List (BitVec 8)) : Option Nat := l.foldlM (fun acc ch => (digitOf ch).map (16 * acc + ·)) 0

/-- **C101**: each feature register is printed as a blank, "0x" and eight hexadecimal digits which are its value. -/
theorem C101_hex (x : BitVec 32) : ∃ ds, hex x = [32, 48, 120] ++ ds ∧ ds.length = 8 ∧ readHex ds = some x.toNat := by
  refine ⟨_, rfl, by simp, ?_⟩
  have hd : ∀ d : BitVec 4, digitOf (hexDigit d) = some d.toNat := by decide
  unfold readHex
  simp only [List.map_cons, List.map_nil, List.foldlM_cons, List.foldlM_nil, hd, Option.map_some, Option.bind_eq_bind, Option.bind_some, Option.pure_def,
    BitVec.extractLsb'_toNat, Nat.shiftRight_eq_div_pow]
  have := x.isLt
  simp only [Option.some.injEq]
  omega

example : readHex [55, 102, 102, 97, 102, 98, 98, 102] = some 0x7ffafbbf := by decide

/-- **C101**: the brand string is the processor's text, character by character. -/
theorem C101_brand_text (c : Cpu) (f : Nat → BitVec 8) (hf : Tells c f) (h : 0x80000004 ≤ (c 0x80000000).eax.toNat)
    (h' : (c 0x80000000).eax.toNat < 2 ^ 32 - 1) :
    brand c = some ((List.range 48).map f ++ List.replicate 16 0) := by
  rw [C101_brand c h h']
  have hr : ∀ k, k < 3 → regBytes (c (0x80000002 + k)) = (List.range 16).map fun j => f (16 * k + j) := by
    intro k hk
    obtain ⟨h1, h2, h3, h4⟩ := hf k hk
    have b := bytes_of
    simp only at b
    unfold regBytes
    simp only [List.flatMap_cons, List.flatMap_nil, h1, h2, h3, h4, b]
    rfl
  have h0 := hr 0 (by decide)
  have h1 := hr 1 (by decide)
  have h2 := hr 2 (by decide)
  rw [Nat.add_zero] at h0
  rw [h0, h1, h2]
  rfl

/-- Case: the processor above; its text begins with "ABCD". -/
example : brand cpuA = some ((List.range 48).map (fun j => if j < 4 then BitVec.ofNat 8 (65 + j) else 0) ++ List.replicate 16 0) := by
  refine C101_brand_text cpuA _ ?_ (by decide) (by decide)
  intro k hk
  match k, hk with
  | 0, _ => decide
  | 1, _ => decide
  | 2, _ => decide

private theorem takeWhile_nz (l : List (BitVec 8)) (h : 0 ∉ l) : l.takeWhile (· != 0) = l := by
  induction l with
  | nil => rfl
  | cons a t ih =>
    simp only [List.mem_cons, not_or] at h
    rw [List.takeWhile_cons, if_pos (by simpa using fun e => h.1 e.symm), ih h.2]

private theorem hexDigit_nz (d : BitVec 4) : hexDigit d ≠ 0 := by revert d; decide

private theorem lit_hex_nz (x : BitVec 32) : (0 : BitVec 8) ∉ hex x := by
  unfold hex
  simp only [List.mem_append, not_or]
  refine ⟨by decide, ?_⟩
  simp only [List.map_cons, List.map_nil, List.mem_cons, List.not_mem_nil, or_false, not_or]
  exact ⟨(hexDigit_nz _).symm, (hexDigit_nz _).symm, (hexDigit_nz _).symm, (hexDigit_nz _).symm, (hexDigit_nz _).symm, (hexDigit_nz _).symm, (hexDigit_nz _).symm,
    (hexDigit_nz _).symm⟩

private theorem flag_nz (b : Bool) : (0 : BitVec 8) ∉ flag b := by cases b <;> decide

private theorem cpustring_text (c : Cpu) (h : 0x80000004 ≤ (c 0x80000000).eax.toNat) (h' : (c 0x80000000).eax.toNat < 2 ^ 32 - 1) :
    cpustring c = some (lit "**CPU: " ++
        (regBytes (c 0x80000002) ++ regBytes (c 0x80000003) ++ regBytes (c 0x80000004) ++ [0]).takeWhile (· != 0) ++
        lit "  AVX2:" ++ flag (gAvx2 c) ++ lit "  BMI2:" ++ flag (gBmi2 c) ++
        hex (atopCpuid c).f1c ++ hex (atopCpuid c).f1d ++ hex (atopCpuid c).f7b ++ hex (atopCpuid c).f7c) := by
  unfold cpustring
  rw [C101_brand c h h']
  have l2 := regBytes_length (c 0x80000002)
  have l3 := regBytes_length (c 0x80000003)
  have l4 := regBytes_length (c 0x80000004)
  have hlen : (regBytes (c 0x80000002) ++ regBytes (c 0x80000003) ++ regBytes (c 0x80000004)).length = 48 := by simp [l2, l3, l4]
  generalize regBytes (c 0x80000002) ++ regBytes (c 0x80000003) ++ regBytes (c 0x80000004) = L at hlen
  have hrep : (List.replicate 16 0 : List (BitVec 8)) = 0 :: List.replicate 15 0 := rfl
  have hcut : ∀ (L M : List (BitVec 8)), (L ++ 0 :: M).takeWhile (· != 0) = (L ++ [0]).takeWhile (· != 0) := by
    intro L M
    induction L with
    | nil => rfl
    | cons a t ih =>
      simp only [List.cons_append, List.takeWhile_cons]
      split
      · rw [ih]
      · rfl
  have hc : cstr (L ++ List.replicate 16 0) = some ((L ++ [0]).takeWhile (· != 0)) := by
    unfold cstr
    rw [if_pos (by simp), hrep, hcut]
  have hT : 0 ∉ (L ++ [0]).takeWhile (· != 0) := by
    intro hm
    have := List.all_takeWhile (p := fun x : BitVec 8 => x != 0) (l := L ++ [0])
    rw [List.all_eq_true] at this
    have := this 0 hm
    simp at this
  have hTl : ((L ++ [0]).takeWhile (· != 0)).length ≤ 49 := by
    have := (List.takeWhile_sublist (l := L ++ [0]) (fun x : BitVec 8 => x != 0)).length_le
    simp only [List.length_append, hlen, List.length_cons, List.length_nil] at this
    omega
  simp only [Option.bind_eq_bind, Option.bind_some, hc, Option.pure_def, Option.some.injEq]
  generalize (L ++ [0]).takeWhile (· != 0) = T at hT hTl
  have hf : ∀ b, (flag b).length = 1 := by intro b; cases b <;> rfl
  have hh : ∀ x, (hex x).length = 11 := by intro x; simp [hex, lit]
  have h1 : (lit "**CPU: ").length = 7 := rfl
  have h2 : (lit "  AVX2:").length = 7 := rfl
  have h3 : (lit "  BMI2:").length = 7 := rfl
  rw [List.take_of_length_le (by simp only [List.length_append, hf, hh, h1, h2, h3]; omega)]
  apply takeWhile_nz
  simp only [List.mem_append, not_or]
  refine ⟨⟨⟨⟨⟨⟨⟨⟨⟨?_, hT⟩, ?_⟩, flag_nz _⟩, ?_⟩, flag_nz _⟩, lit_hex_nz _⟩, lit_hex_nz _⟩, lit_hex_nz _⟩, lit_hex_nz _⟩ <;> decide

/-- **C101**: `cpustring()` is complete (nothing is cut off) and says what the processor reports: the brand up to its first zero byte, whether AVX2 (bit 5) and BMI2
(bit 8 of EBX of leaf 7) are there, and the feature registers of leaves 1 and 7. -/
theorem C101_cpustring (c : Cpu) (h7 : 7 ≤ (c 0).eax.toNat) (h : 0x80000004 ≤ (c 0x80000000).eax.toNat) (h' : (c 0x80000000).eax.toNat < 2 ^ 32 - 1) :
    cpustring c = some (lit "**CPU: " ++
        (regBytes (c 0x80000002) ++ regBytes (c 0x80000003) ++ regBytes (c 0x80000004) ++ [0]).takeWhile (· != 0) ++
        lit "  AVX2:" ++ lit (if (c 7).ebx.getLsbD 5 then "1" else "0") ++ lit "  BMI2:" ++ lit (if (c 7).ebx.getLsbD 8 then "1" else "0") ++
        hex (c 1).ecx ++ hex (c 1).edx ++ hex (c 7).ebx ++ hex (c 7).ecx) := by
  rw [cpustring_text c h h']
  have h1 : 1 ≤ (c 0).eax.toNat := by omega
  have ha : flag (gAvx2 c) = lit (if (c 7).ebx.getLsbD 5 then "1" else "0") := by
    unfold gAvx2 flag
    rw [hasBit_eq _ _ (by decide)]
    simp only [atopCpuid, if_pos h7]
    split <;> rfl
  have hb : flag (gBmi2 c) = lit (if (c 7).ebx.getLsbD 8 then "1" else "0") := by
    unfold gBmi2 flag
    rw [hasBit_eq _ _ (by decide)]
    simp only [atopCpuid, if_pos h7]
    split <;> rfl
  rw [ha, hb]
  simp only [atopCpuid, if_pos h7, if_pos h1]

/-- Case: the processor above, whose brand is "ABCD". -/
example : cpustring cpuA = some (lit "**CPU: ABCD  AVX2:1  BMI2:1 0x7ffafbbf 0xbfebfbff 0x029c6fbf 0x00000000") := by
  rw [C101_cpustring cpuA (by decide) (by decide) (by decide)]
  decide +kernel

end Pnumpy.Props
