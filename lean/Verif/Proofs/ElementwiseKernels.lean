import Verif.Proofs.ElementwiseRun
/- Every modelled kernel processes every lane in order. -/
namespace Pnumpy.Elem
open Pnumpy.Spec
variable {α : Type} {f : α → α → α}

theorem strided_zero (p : Int) (l : Nat) : strided p 0 l = p := by simp [strided]

theorem loadOK_same {A : Args} {l : Nat} {x y : Int} (hx : x = strided A.p1 A.s1 l)
    (hy : y = strided A.p2 A.s2 l) : LoadOK f A l x y := by
  subst hx hy; exact ⟨fun _ => rfl, Or.inl rfl, Or.inr rfl⟩

theorem loadOK_swap {A : Args} {l : Nat} {x y : Int} (hf : ∀ a b, f a b = f b a)
    (hx : x = strided A.p2 A.s2 l) (hy : y = strided A.p1 A.s1 l) : LoadOK f A l x y := by
  subst hx hy; exact ⟨fun m => hf _ _, Or.inr rfl, Or.inl rfl⟩

theorem seg_loop0 {P} {a1 a2 o : Nat → Int} {n : Nat} (h : ∀ l, P l (a1 l) (a2 l)) :
    Seg P o 0 n (scalarLoop a1 a2 o 0 n) := by
  have := seg_scalarLoop (P := P) (a1 := a1) (a2 := a2) (o := o) 0 n (fun l _ _ => h l)
  rwa [Nat.zero_add] at this

theorem size_pow2 {size : Nat} (h : size = 1 ∨ size = 2 ∨ size = 4 ∨ size = 8) :
    ∃ j, 32 / size = 2 ^ j := by
  rcases h with rfl | rfl | rfl | rfl
  · exact ⟨5, rfl⟩
  · exact ⟨4, rfl⟩
  · exact ⟨3, rfl⟩
  · exact ⟨2, rfl⟩

theorem seg_slow (size : Nat) (A : Args) (n : Nat) : KernelSeg f A n (simpleMathOpSlow size A n) := by
  unfold KernelSeg simpleMathOpSlow
  simp only
  split
  · rename_i ho
    rw [← ho]
    split
    · split
      · rename_i h
        exact seg_loop0 fun l => loadOK_same (by rw [h.2]) (by rw [h.1])
      · exact seg_loop0 fun l => loadOK_same rfl rfl
    · split
      · rename_i h; rw [← h.2]
        exact seg_loop0 fun l => loadOK_same (by rw [h.1, strided_zero]) rfl
      · split
        · rename_i h; rw [← h.2]
          exact seg_loop0 fun l => loadOK_same rfl (by rw [h.1, strided_zero])
        · exact seg_loop0 fun l => loadOK_same rfl rfl
  · exact seg_loop0 fun l => loadOK_same rfl rfl

theorem seg_fast {size : Nat} (hs : size = 1 ∨ size = 2 ∨ size = 4 ∨ size = 8) (A : Args) (n : Nat) :
    KernelSeg f A n (simpleMathOpFast size A n) := by
  unfold KernelSeg simpleMathOpFast
  have hw := size_pow2 hs
  simp only
  split
  · rename_i ho
    split
    · rename_i h
      have h1 : ∀ l, LoadOK f A l (strided A.p1 size l) (strided A.p2 size l) := fun l =>
        loadOK_same (by rw [h.2.2]) (by rw [h.2.1])
      rw [← ho] at *
      exact seg_vecTail hw n (fun l _ => h1 l) (fun l _ => h1 l)
    · split
      · rename_i h
        have h1 : ∀ l, LoadOK f A l A.p1 (strided A.p2 size l) := fun l =>
          loadOK_same (by rw [h.1, strided_zero]) (by rw [h.2])
        rw [← ho] at *
        exact seg_vecTail hw n (fun l _ => h1 l) (fun l _ => h1 l)
      · split
        · rename_i h
          have h1 : ∀ l, LoadOK f A l (strided A.p1 size l) A.p2 := fun l =>
            loadOK_same (by rw [h.2]) (by rw [h.1, strided_zero])
          split
          · rename_i hp
            rw [ho]
            rw [hp]
            exact seg_inplaceScalar hw size A.p1 n (fun l _ => h1 l) (fun l _ => h1 l)
          · rw [← ho] at *
            exact seg_vecTail hw n (fun l _ => h1 l) (fun l _ => h1 l)
        · exact seg_loop0 fun l => loadOK_same rfl rfl
  · exact seg_loop0 fun l => loadOK_same rfl rfl

theorem seg_symmetric {size : Nat} (hs : size = 1 ∨ size = 2 ∨ size = 4 ∨ size = 8)
    (hf : ∀ a b, f a b = f b a) (A : Args) (n : Nat) :
    KernelSeg f A n (simpleMathOpFastSymmetric size A n) := by
  unfold KernelSeg simpleMathOpFastSymmetric
  have hw := size_pow2 hs
  simp only
  split
  · rename_i ho
    split
    · rename_i h
      split
      · have h1 : ∀ l, LoadOK f A l (strided A.p1 size l) (strided A.p2 size l) := fun l =>
          loadOK_same (by rw [h.2]) (by rw [h.1])
        rw [← ho] at *
        exact seg_vecTail hw n (fun l _ => h1 l) (fun l _ => h1 l)
      · rename_i hp
        have hp' : A.p1 = A.p2 := Decidable.byContradiction hp
        have h1 : ∀ l, LoadOK f A l (strided A.p1 size l) (strided A.p1 size l) := fun l =>
          loadOK_same (by rw [h.2]) (by rw [h.1, hp'])
        rw [← ho] at *
        exact seg_vecTail hw n (fun l _ => h1 l) (fun l _ => h1 l)
    · split
      · rename_i h
        have h1 : ∀ l, LoadOK f A l A.p1 (strided A.p2 size l) := fun l =>
          loadOK_same (by rw [h.1, strided_zero]) (by rw [h.2])
        rw [← ho] at *
        exact seg_vecTail hw n (fun l _ => h1 l) (fun l _ => h1 l)
      · split
        · rename_i h
          have h1 : ∀ l, LoadOK f A l (strided A.p1 size l) A.p2 := fun l =>
            loadOK_same (by rw [h.2]) (by rw [h.1, strided_zero])
          have h2 : ∀ l, LoadOK f A l A.p2 (strided A.p1 size l) := fun l =>
            loadOK_swap hf (by rw [h.1, strided_zero]) (by rw [h.2])
          split
          · rename_i hp
            rw [ho, hp]
            exact seg_inplaceScalar hw size A.p1 n (fun l _ => h2 l) (fun l _ => h1 l)
          · rw [← ho] at *
            exact seg_vecTail hw n (fun l _ => h2 l) (fun l _ => h1 l)
        · exact seg_loop0 fun l => loadOK_same rfl rfl
  · exact seg_loop0 fun l => loadOK_same rfl rfl

theorem seg_whileTail {P} {a1 a2 o : Nat → Int} {w : Nat} (hw : 0 < w) (n : Nat)
    (h : ∀ l, P l (a1 l) (a2 l)) :
    (vecWhile a1 a2 o w (w * (n / w)) 0).2 = w * (n / w) ∧
    Seg P o 0 (w * (n / w)) (vecWhile a1 a2 o w (w * (n / w)) 0).1 := by
  obtain ⟨_, _, e2, e3⟩ := seg_vecWhile (P := P) (a1 := a1) (a2 := a2) (o := o) hw
    (w * (n / w)) 0 (w * (n / w) + w) (by intro; omega) (by omega) (fun l _ _ => h l)
  have e2' := e2 (Nat.dvd_mul_right _ _) (Nat.zero_le _)
  rw [e2'] at e3
  exact ⟨e2', e3⟩

theorem seg_fastDouble (size : Nat) (A : Args) (n : Nat) :
    KernelSeg f A n (simpleMathOpFastDouble size A n) := by
  unfold KernelSeg simpleMathOpFastDouble
  simp only
  split
  · rename_i ho
    split
    · rename_i h
      have h1 : ∀ l, LoadOK f A l (strided A.p1 size l) (strided A.p2 size l) := fun l =>
        loadOK_same (by rw [h.1]) (by rw [h.1, h.2])
      rw [ho]
      split
      · obtain ⟨e1, e2⟩ := seg_whileTail (P := LoadOK f A) (o := strided A.po 8) (w := 4)
          (by omega) n h1
        rw [e1]
        have hm : n &&& 3 = n % 4 := and_mask (w := 4) ⟨2, rfl⟩
        rw [hm]
        have hdm := Nat.div_add_mod n 4
        have := seg_scalarLoop (P := LoadOK f A) (o := strided A.po 8) (4 * (n / 4)) (n % 4)
          (fun l _ _ => h1 l)
        rw [hdm] at this
        exact Seg.append e2 this (by omega) (by omega)
      · exact seg_loop0 h1
    · split
      · rename_i h; rw [ho]
        exact seg_loop0 fun l => loadOK_same (by rw [h.2, strided_zero]) (by rw [h.1])
      · split
        · rename_i h; rw [ho]
          exact seg_loop0 fun l => loadOK_same (by rw [h.1]) (by rw [h.2, strided_zero])
        · exact seg_loop0 fun l => loadOK_same rfl rfl
  · exact seg_loop0 fun l => loadOK_same rfl rfl

theorem seg_unarySlow {P} {a o : Nat → Int} {so : Int} (hso : so ≠ 0) {n p : Nat} (hp : p ≤ n)
    (h : ∀ l, P l (a l) (a l)) : Seg P o p n (unarySlow a o so n p) := by
  unfold unarySlow
  rw [if_neg hso]
  have := seg_scalarLoop (P := P) (a1 := a) (a2 := a) (o := o) p (n - p) (fun l _ _ => h l)
  rwa [show p + (n - p) = n by omega] at this

theorem loadOK_unary {A : Args} (h2 : A.p2 = A.p1 ∧ A.s2 = A.s1) {l : Nat} {x : Int}
    (hx : x = strided A.p1 A.s1 l) : LoadOK f A l x x :=
  loadOK_same hx (by rw [h2.1, h2.2]; exact hx)

theorem seg_unaryFast {size : Nat} (hs : size = 1 ∨ size = 2 ∨ size = 4 ∨ size = 8) {A : Args}
    (hso : A.so ≠ 0) (h2 : A.p2 = A.p1 ∧ A.s2 = A.s1) (n : Nat) :
    KernelSeg f A n (unaryOpFast size A.p1 A.s1 A.po A.so n) := by
  unfold KernelSeg unaryOpFast
  have hw := size_pow2 hs
  have hw0 := pow2_pos hw
  simp only
  have hall : ∀ l, LoadOK f A l (strided A.p1 A.s1 l) (strided A.p1 A.s1 l) :=
    fun l => loadOK_unary h2 rfl
  split
  · rename_i h
    rw [h.1, ← h.2.1.symm.trans h.1] 
    have hdm := Nat.div_add_mod n (32 / size)
    have hpos : 0 < 32 / size * (n / (32 / size)) := Nat.mul_pos hw0 (Nat.div_pos h.2.2 hw0)
    obtain ⟨e1, e2⟩ := seg_vecDo (P := LoadOK f A) (a1 := strided A.p1 A.s1) (a2 := strided A.p1 A.s1)
      (o := strided A.po A.s1) hw0 (32 / size * (n / (32 / size))) 0
      (by rw [Nat.sub_zero]; exact Nat.dvd_mul_right _ _) hpos (fun l _ _ => hall l)
    rw [e1]
    refine Seg.append e2 (seg_unarySlow (by rw [← h.2.1, h.1]; exact hso) (by omega) hall)
      (by omega) (by omega)
  · exact seg_unarySlow hso (by omega) hall

theorem seg_unaryNan {size w ml : Nat} (_hw : 0 < w) {A : Args}
    (hso : A.so ≠ 0) (h2 : A.p2 = A.p1 ∧ A.s2 = A.s1) (n : Nat) :
    KernelSeg f A n (unaryNanFast size w ml A.p1 A.s1 A.po A.so n) := by
  unfold KernelSeg unaryNanFast
  split
  · rename_i h
    have hall : ∀ l, LoadOK f A l (strided A.p1 size l) (strided A.p1 size l) :=
      fun l => loadOK_unary h2 (by rw [h.2.1])
    rw [h.1] at *
    have hdm := Nat.div_add_mod n w
    have e1 := seg_vecFor (P := LoadOK f A) (o := strided A.po A.so) w (n / w) (fun l _ => hall l)
    have e2 := seg_scalarLoop (P := LoadOK f A) (o := strided A.po A.so) (w * (n / w))
      (n - w * (n / w)) (fun l _ _ => hall l)
    rw [show w * (n / w) + (n - w * (n / w)) = n by omega] at e2
    exact Seg.append e1 e2 (by omega) (by omega)
  · exact seg_unarySlow hso (by omega) fun l => loadOK_unary h2 rfl

theorem seg_unaryMask {size w : Nat} (hw : 0 < w) {A : Args}
    (hso : A.so ≠ 0) (h2 : A.p2 = A.p1 ∧ A.s2 = A.s1) (n : Nat) :
    KernelSeg f A n (unaryMaskFast size w A.p1 A.s1 A.po A.so n) := by
  unfold KernelSeg unaryMaskFast
  split
  · rename_i h
    have hall : ∀ l, LoadOK f A l (strided A.p1 size l) (strided A.p1 size l) :=
      fun l => loadOK_unary h2 (by rw [h.2.1])
    rw [h.1] at *
    have hdm := Nat.div_add_mod n w
    obtain ⟨e1, e2⟩ := seg_whileTail (P := LoadOK f A) (o := strided A.po A.so) hw n hall
    simp only
    rw [e1]
    exact Seg.append e2 (seg_unarySlow hso (by omega) fun l => loadOK_unary h2 rfl)
      (by omega) (by omega)
  · exact seg_unarySlow hso (by omega) fun l => loadOK_unary h2 rfl

theorem seg_cmpAny (size : Nat) (A : Args) (n : Nat) : KernelSeg f A n (compareAny size A n) := by
  unfold KernelSeg compareAny
  simp only
  split
  · rename_i ho
    rw [ho]
    split
    · rename_i h
      split
      · rename_i h'
        exact seg_loop0 fun l => loadOK_same (by rw [h, strided_zero]) (by rw [h'])
      · exact seg_loop0 fun l => loadOK_same rfl rfl
    · split
      · rename_i h
        split
        · rename_i h'
          exact seg_loop0 fun l => loadOK_same (by rw [h']) (by rw [h, strided_zero])
        · exact seg_loop0 fun l => loadOK_same rfl rfl
      · split
        · rename_i h
          exact seg_loop0 fun l => loadOK_same (by rw [h.2]) (by rw [h.1])
        · exact seg_loop0 fun l => loadOK_same rfl rfl
  · exact seg_loop0 fun l => loadOK_same rfl rfl

theorem seg_forTail {P} {a b o : Nat → Int} (w n : Nat) (h : ∀ l, P l (a l) (b l)) :
    Seg P o 0 n (vecFor a b o w (n / w) ++ scalarLoop a b o (n / w * w) (n - n / w * w)) := by
  have hdm := Nat.div_add_mod n w
  have e1 := seg_vecFor (P := P) (a1 := a) (a2 := b) (o := o) w (n / w) (fun l _ => h l)
  rw [Nat.mul_comm (n / w) w]
  have e2 := seg_scalarLoop (P := P) (a1 := a) (a2 := b) (o := o) (w * (n / w)) (n - w * (n / w))
    (fun l _ _ => h l)
  rw [show w * (n / w) + (n - w * (n / w)) = n by omega] at e2
  exact Seg.append e1 e2 (by omega) (by omega)

theorem seg_cmpVec (size w : Nat) (A : Args) (n : Nat) : KernelSeg f A n (compareVec size w A n) := by
  unfold KernelSeg compareVec
  simp only
  split
  · rename_i ho
    rw [ho]
    split
    · rename_i h
      split
      · rename_i h'
        exact seg_forTail w n fun l => loadOK_same (by rw [h, strided_zero]) (by rw [h'])
      · exact seg_loop0 fun l => loadOK_same rfl rfl
    · split
      · rename_i h
        split
        · rename_i h'
          exact seg_forTail w n fun l => loadOK_same (by rw [h']) (by rw [h, strided_zero])
        · exact seg_loop0 fun l => loadOK_same rfl rfl
      · split
        · rename_i h
          exact seg_forTail w n fun l => loadOK_same (by rw [h.1]) (by rw [h.2])
        · exact seg_loop0 fun l => loadOK_same rfl rfl
  · exact seg_loop0 fun l => loadOK_same rfl rfl

theorem seg_while16 {P} {a b o : Nat → Int} (n : Nat) (h : ∀ l, P l (a l) (b l)) :
    Seg P o 0 n ((vecWhile a b o 16 (n - 16) 0).1 ++
      scalarLoop a b o (vecWhile a b o 16 (n - 16) 0).2 (n - (vecWhile a b o 16 (n - 16) 0).2)) := by
  obtain ⟨e0, e1, _, e3⟩ := seg_vecWhile (P := P) (a1 := a) (a2 := b) (o := o) (w := 16) (by omega)
    (n - 16) 0 n (by intro; omega) (by omega) (fun l _ _ => h l)
  have e2 := seg_scalarLoop (P := P) (a1 := a) (a2 := b) (o := o) (vecWhile a b o 16 (n - 16) 0).2
    (n - (vecWhile a b o 16 (n - 16) 0).2) (fun l _ _ => h l)
  rw [Nat.add_sub_cancel' e1] at e2
  exact Seg.append e3 e2 e0 e1

theorem seg_cmpInt64 (A : Args) (n : Nat) : KernelSeg f A n (compareInt64 A n) := by
  unfold KernelSeg compareInt64
  simp only
  split
  · rename_i ho
    rw [ho]
    split
    · rename_i h
      split
      · rename_i h'
        exact seg_while16 n fun l => loadOK_same (by rw [h, strided_zero]) (by rw [h'])
      · exact seg_loop0 fun l => loadOK_same rfl rfl
    · split
      · rename_i h
        split
        · rename_i h'
          exact seg_while16 n fun l => loadOK_same (by rw [h']) (by rw [h, strided_zero])
        · exact seg_loop0 fun l => loadOK_same rfl rfl
      · split
        · rename_i h
          exact seg_while16 n fun l => loadOK_same (by rw [h.1]) (by rw [h.2])
        · exact seg_loop0 fun l => loadOK_same rfl rfl
  · exact seg_loop0 fun l => loadOK_same rfl rfl

theorem Cover.appendSub {P o n k es fs} (h1 : Cover P o 0 n es) (h2 : Cover P o 0 k fs) (hk : k ≤ n) :
    Cover P o 0 n (es ++ fs) where
  bound e he := by
    rcases List.mem_append.mp he with he | he
    · exact h1.bound e he
    · have := h2.bound e he; omega
  loads l x y he := by
    rcases List.mem_append.mp he with he | he
    · exact h1.loads l x y he
    · exact h2.loads l x y he
  stores l a he := by
    rcases List.mem_append.mp he with he | he
    · exact h1.stores l a he
    · exact h2.stores l a he
  before pre l a post he := by
    rcases split_append he with ⟨q, hq⟩ | ⟨q, hq, hr⟩
    · exact h1.before pre l a q hq
    · obtain ⟨x, y, hxy⟩ := h2.before q l a post hr
      exact ⟨x, y, by rw [hq]; exact List.mem_append_right _ hxy⟩
  total l hl hh := List.mem_append_left _ (h1.total l hl hh)

theorem cover_cmpInt8 (A : Args) (n : Nat) : KernelCover f A n (compareInt8 A n) := by
  unfold KernelCover compareInt8
  simp only
  split
  · rename_i ho
    rw [ho]
    split
    · rename_i h
      split
      · rename_i h'
        exact (seg_forTail 32 n fun l =>
          loadOK_same (by rw [h, strided_zero]) (by rw [h'])).toCover
      · exact (seg_loop0 fun l => loadOK_same rfl rfl).toCover
    · split
      · rename_i h
        split
        · rename_i h'
          exact (seg_forTail 32 n fun l =>
            loadOK_same (by rw [h']) (by rw [h, strided_zero])).toCover
        · exact (seg_loop0 fun l => loadOK_same rfl rfl).toCover
      · split
        · rename_i h
          exact Cover.appendSub
            (seg_forTail 32 n fun l => loadOK_same (by rw [h.1]) (by rw [h.2])).toCover
            (seg_loop0 (n := n - n / 32 * 32) fun l => loadOK_same rfl rfl).toCover (by omega)
        · exact (seg_loop0 fun l => loadOK_same rfl rfl).toCover
  · exact (seg_loop0 fun l => loadOK_same rfl rfl).toCover

theorem kernel_seg (k : Kernel) (hv : k.Valid) (A : Args) (hc : k.Callable f A)
    (h8 : k ≠ .cmpInt8) (n : Nat) : KernelSeg f A n (k.prog A n) := by
  cases k with
  | slow size => exact seg_slow size A n
  | fast size => exact seg_fast hv A n
  | symmetric size => exact seg_symmetric hv (hc.2 ⟨size, rfl⟩) A n
  | fastDouble size => exact seg_fastDouble size A n
  | unaryFast size => exact seg_unaryFast hv (hc.1 rfl).1 (hc.1 rfl).2 n
  | unarySlow => exact seg_unarySlow (hc.1 rfl).1 (by omega) fun l => loadOK_unary (hc.1 rfl).2 rfl
  | unaryNan size w ml => exact seg_unaryNan hv (hc.1 rfl).1 (hc.1 rfl).2 n
  | unaryMask size w => exact seg_unaryMask hv (hc.1 rfl).1 (hc.1 rfl).2 n
  | cmpAny size => exact seg_cmpAny size A n
  | cmpVec size w => exact seg_cmpVec size w A n
  | cmpInt64 => exact seg_cmpInt64 A n
  | cmpInt8 => exact absurd rfl h8

theorem kernel_cover (k : Kernel) (hv : k.Valid) (A : Args) (hc : k.Callable f A) (n : Nat) :
    KernelCover f A n (k.prog A n) := by
  by_cases h8 : k = .cmpInt8
  · subst h8; exact cover_cmpInt8 A n
  · exact (kernel_seg k hv A hc h8 n).toCover

theorem callable_at {k : Kernel} {A : Args} (hc : k.Callable f A) (first : Nat) :
    k.Callable f (A.at first) := by
  refine ⟨fun hu => ?_, hc.2⟩
  obtain ⟨h1, h2, h3⟩ := hc.1 hu
  exact ⟨h1, by simp [Args.at, h2, h3], h3⟩

end Pnumpy.Elem
