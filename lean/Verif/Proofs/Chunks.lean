import Verif.Model.Chunks
import Verif.Props.Work
import Mathlib.Data.List.Basic
import Mathlib.Data.List.Perm.Basic
import Mathlib.Tactic.Ring
import Mathlib.Tactic.Positivity
/- Lemmas on chunk calls and on the writes of chunk kernels. -/
namespace Pnumpy.Chunks
open Pnumpy

variable {β : Type}

theorem calls_exist {n : Nat} (hn : 65536 ≤ n) : ∃ calls, Calls n true calls := by
  let g : Counter.Cfg := { n := (n + 16383) / 16384, skip0 := false, wakeup := 0 }
  have hpc : ∀ t c, c ≠ 0 → (Counter.trace g (fun _ => .go 0) t).pc c = .idle := by
    intro t
    induction t with
    | zero => intro c hc; simp [Counter.trace, Counter.init, hc]
    | succ t ih =>
      intro c hc
      have := ih c hc
      rw [Counter.trace]
      generalize Counter.trace g (fun _ => Counter.Act.go 0) t = s at this
      unfold Counter.step
      have hu : ∀ p, Work.upd s.pc 0 p c = .idle := fun p => by simp [Work.upd, hc, this]
      simp only
      split
      · exact this
      · split <;> first | exact hu _ | exact this | skip
        split <;> first | exact hu _ | exact this
  obtain ⟨t, ht⟩ := Props.C04_chunk_progress ((n + 16383) / 16384) 0 (fun _ => .go 0)
    ⟨fun t => ⟨t, Nat.le_refl _, rfl⟩, fun t c hb => by
      by_cases hc : c = 0
      · subst hc; exact ⟨t, Nat.le_refl _, rfl⟩
      · rw [hpc t c hc] at hb; cases hb⟩
  have htr : ∀ t, Counter.exec g (List.replicate t (.go 0)) = Counter.trace g (fun _ => .go 0) t := by
    intro t
    induction t with
    | zero => rfl
    | succ t ih =>
      rw [List.replicate_succ', Counter.exec, List.foldl_append, Counter.trace]
      rw [Counter.exec] at ih
      rw [ih]; rfl
  exact ⟨_, .threaded 0 (List.replicate t (.go 0)) hn (by
    have := htr t
    rw [this]; exact ht)⟩

/-- The blocks of a threaded chunk call, in order. -/
def blocks (n : Nat) : List (Nat × Nat) :=
  (List.range ((n + 16383) / 16384)).map fun b => (16384 * b, min 16384 (n - 16384 * b))

/-- The calls follow each other without gap from `a` to `n`. -/
def Consec (n : Nat) : Nat → List (Nat × Nat) → Prop
  | a, [] => a = n
  | a, (s, l) :: ps => s = a ∧ Consec n (a + l) ps

theorem blockLen_eq {n b : Nat} (hb : b < (n + 16383) / 16384) :
    (Work.workMainSetup n 0 0 Work.CHUNK true 0).blockLen b = min 16384 (n - 16384 * b) := by
  have hm : n &&& Work.MASK = n % 16384 := by
    have := Nat.and_two_pow_sub_one_eq_mod n 14
    simpa [Work.MASK, Work.CHUNK] using this
  unfold Work.Item.blockLen Work.workMainSetup
  simp only [hm, if_true, Work.CHUNK]
  split
  · next h =>
    split <;> omega
  · next h => omega

theorem calls_threaded {n : Nat} {calls : List (Nat × Nat)} (h : Calls n true calls) : 65536 ≤ n ∧ calls.Perm (blocks n) := by
  cases h with
  | threaded wakeup sched hn hret =>
    refine ⟨hn, ?_⟩
    obtain ⟨_, h2, h3⟩ := Props.C04_tasks_exactly_once { n := (n + 16383) / 16384, skip0 := false, wakeup } sched
    have := (h3 hret).map fun b => (Work.CHUNK * b, (Work.workMainSetup n 0 0 Work.CHUNK true 0).blockLen b)
    refine this.trans (List.Perm.of_eq ?_)
    unfold blocks
    apply List.map_congr_left
    intro b hb
    rw [blockLen_eq (List.mem_range.1 hb)]; rfl

theorem calls_serial {n : Nat} {calls : List (Nat × Nat)} (h : Calls n false calls) : calls = [(0, n)] := by
  cases h; rfl

theorem consec_blocks_aux (n : Nat) : ∀ k a, n ≤ 16384 * (a + k) → (k = 0 → 16384 * a = n ∨ n ≤ 16384 * a) →
    (∀ b, a ≤ b → b < a + k → 16384 * b < n) → 
    ∃ e, (k = 0 → e = a) ∧ Consec n (min n (16384 * a)) ((List.range' a k).map fun b => (16384 * b, min 16384 (n - 16384 * b))) := by
  intro k
  induction k with
  | zero => intro a h1 h2 h3; exact ⟨a, fun _ => rfl, by simp [Consec]; omega⟩
  | succ k ih =>
    intro a h1 h2 h3
    have ha := h3 a (by omega) (by omega)
    obtain ⟨e, _, h⟩ := ih (a + 1) (by omega) (by omega) (fun b hb1 hb2 => h3 b (by omega) (by omega))
    refine ⟨a, fun _ => rfl, ?_⟩
    rw [List.range'_succ, List.map_cons]
    refine ⟨by omega, ?_⟩
    have : min n (16384 * a) + min 16384 (n - 16384 * a) = min n (16384 * (a + 1)) := by omega
    rw [this]; exact h

theorem consec_blocks (n : Nat) : Consec n 0 (blocks n) := by
  obtain ⟨e, _, h⟩ := consec_blocks_aux n ((n + 16383) / 16384) 0 (by omega) (by omega) (fun b _ hb => by omega)
  rw [List.range_eq_range'.symm] at h
  simpa [blocks] using h

theorem consec_serial (n : Nat) : Consec n 0 [(0, n)] := ⟨rfl, by simp [Consec]⟩

/-- Whatever the mode and schedule, the calls are a rearrangement of consecutive parts. -/
theorem calls_parts {n : Nat} {b : Bool} {calls : List (Nat × Nat)} (h : Calls n b calls) :
    ∃ parts, calls.Perm parts ∧ Consec n 0 parts := by
  cases b with
  | false => exact ⟨_, List.Perm.of_eq (calls_serial h), consec_serial n⟩
  | true => exact ⟨_, (calls_threaded h).2, consec_blocks n⟩

theorem Consec.le {n a : Nat} {ps : List (Nat × Nat)} (h : Consec n a ps) : a ≤ n := by
  induction ps generalizing a with
  | nil => exact Nat.le_of_eq h
  | cons p ps ih => obtain ⟨s, l⟩ := p; have := ih h.2; omega

theorem Consec.mem {n a : Nat} {ps : List (Nat × Nat)} (h : Consec n a ps) {c : Nat × Nat} (hc : c ∈ ps) : a ≤ c.1 ∧ c.1 + c.2 ≤ n := by
  induction ps generalizing a with
  | nil => simp at hc
  | cons p ps ih =>
    obtain ⟨s, l⟩ := p
    rcases List.mem_cons.1 hc with rfl | hc
    · have := h.2.le; have := h.1; constructor <;> simp <;> omega
    · have := ih h.2 hc; omega

theorem allWrites_eq {prog : Nat × Nat → Option (List (Int × List β))} {f : Nat × Nat → List (Int × List β)} {calls : List (Nat × Nat)}
    (h : ∀ c ∈ calls, prog c = some (f c)) : allWrites prog calls = some (calls.flatMap f) := by
  induction calls with
  | nil => rfl
  | cons c cs ih =>
    rw [allWrites, h c (by simp), ih (fun c hc => h c (by simp [hc]))]; rfl

theorem allWrites_none {prog : Nat × Nat → Option (List (Int × List β))} {calls : List (Nat × Nat)}
    (h : ∃ c ∈ calls, prog c = none) : allWrites prog calls = none := by
  induction calls with
  | nil => obtain ⟨c, hc, _⟩ := h; simp at hc
  | cons c cs ih =>
    obtain ⟨d, hd, hn⟩ := h
    rw [allWrites]
    rcases List.mem_cons.1 hd with rfl | hd
    · rw [hn]; rfl
    · cases prog c with
      | none => rfl
      | some ws => rw [ih ⟨d, hd, hn⟩]; rfl

/-- A list of `m * isz` bytes is `m` blocks. -/
theorem exists_blocks (isz : Nat) : ∀ (m : Nat) (out : List β), out.length = m * isz →
    ∃ bl : List (List β), bl.length = m ∧ (∀ x ∈ bl, x.length = isz) ∧ out = bl.flatten := by
  intro m
  induction m with
  | zero => intro out h; exact ⟨[], rfl, by simp, by simpa using h⟩
  | succ m ih =>
    intro out h
    rw [Nat.succ_mul] at h
    obtain ⟨bl, h1, h2, h3⟩ := ih (out.drop isz) (by rw [List.length_drop]; omega)
    refine ⟨out.take isz :: bl, by simp [h1], ?_, ?_⟩
    · intro x hx
      rcases List.mem_cons.1 hx with rfl | hx
      · rw [List.length_take]; omega
      · exact h2 x hx
    · rw [List.flatten_cons, ← h3, List.take_append_drop]

theorem flatten_length {isz : Nat} {bl : List (List β)} (h : ∀ x ∈ bl, x.length = isz) : bl.flatten.length = bl.length * isz := by
  induction bl with
  | nil => simp
  | cons b bl ih => rw [List.flatten_cons, List.length_append, ih fun x hx => h x (by simp [hx]), h b (by simp), List.length_cons, Nat.succ_mul]; omega

theorem write_block {isz : Nat} {bl : List (List β)} (h : ∀ x ∈ bl, x.length = isz) {j : Nat} (hj : j < bl.length) {x : List β}
    (hx : x.length = isz) : write bl.flatten ((j : Int) * isz) x = some (bl.set j x).flatten := by
  have e : bl = bl.take j ++ bl[j] :: bl.drop (j + 1) := by simp
  have l1 : (bl.take j).flatten.length = j * isz := by
    rw [flatten_length (isz := isz) fun y hy => h y (List.mem_of_mem_take hy), List.length_take]
    congr 1; omega
  have hset : (bl.set j x).flatten = (bl.take j).flatten ++ x ++ (bl.drop (j + 1)).flatten := by
    rw [List.set_eq_take_append_cons_drop, if_pos hj]; simp
  have hfl : bl.flatten = (bl.take j).flatten ++ bl[j] ++ (bl.drop (j + 1)).flatten := by
    conv_lhs => rw [e]
    rw [List.flatten_append, List.flatten_cons, List.append_assoc]
  have hbj : bl[j].length = isz := h _ (List.getElem_mem hj)
  unfold write
  have hnn : (0 : Int) ≤ (j : Int) * isz := by positivity
  have hto : ((j : Int) * isz).toNat = j * isz := by
    rw [← Int.natCast_mul, Int.toNat_natCast]
  have hlen : (bl.flatten.length : Int) = (j : Int) * isz + isz + (bl.drop (j + 1)).flatten.length := by
    rw [hfl]; simp only [List.length_append, l1, hbj]; push_cast; ring
  rw [if_pos ⟨hnn, by rw [hx, hlen]; omega⟩, hto, hset]
  congr 1
  rw [hfl]
  have t1 : (((bl.take j).flatten ++ bl[j]) ++ (bl.drop (j + 1)).flatten).take (j * isz) = (bl.take j).flatten := by
    rw [List.append_assoc, ← l1, List.take_left]
  have t2 : (((bl.take j).flatten ++ bl[j]) ++ (bl.drop (j + 1)).flatten).drop (j * isz + x.length) = (bl.drop (j + 1)).flatten := by
    have : ((bl.take j).flatten ++ bl[j]).length = j * isz + x.length := by rw [List.length_append, l1, hbj, hx]
    rw [← this, List.drop_left]
  rw [t1, t2]

/-- The writes of a list of numbered items. -/
def itemWrites (isz : Nat) (ws : List (List β × Nat)) : List (Int × List β) := ws.map fun p => ((p.2 : Int) * isz, p.1)

theorem runWrites_items {isz : Nat} {items : List (List β)} (hi : ∀ x ∈ items, x.length = isz) :
    ∀ (ws : List (List β × Nat)) (bl : List (List β)), bl.length = items.length → (∀ x ∈ bl, x.length = isz) →
      (∀ p ∈ ws, items[p.2]? = some p.1) →
      ∃ bl' : List (List β), runWrites bl.flatten (itemWrites isz ws) = some bl'.flatten ∧ bl'.length = bl.length ∧
        ∀ j, bl'[j]? = if j ∈ ws.map (·.2) then items[j]? else bl[j]? := by
  intro ws
  induction ws with
  | nil => intro bl _ _ _; exact ⟨bl, rfl, rfl, by simp⟩
  | cons p ws ih =>
    obtain ⟨x, k⟩ := p
    intro bl h1 h2 h3
    have hk := h3 (x, k) (by simp)
    have hkl : k < items.length := by
      by_contra h; rw [List.getElem?_eq_none (by omega)] at hk; cases hk
    have hxi : x ∈ items := List.mem_of_getElem? hk
    obtain ⟨bl', g1, g2, g3⟩ := ih (bl.set k x) (by simpa using h1)
      (fun y hy => by
        rcases List.mem_or_eq_of_mem_set hy with h | rfl
        · exact h2 y h
        · exact hi _ hxi)
      (fun q hq => h3 q (by simp [hq]))
    refine ⟨bl', ?_, by simpa using g2, ?_⟩
    · show runWrites _ (((k : Int) * isz, x) :: itemWrites isz ws) = _
      rw [runWrites, write_block h2 (by omega) (hi _ hxi)]
      exact g1
    · intro j
      rw [g3 j]
      simp only [List.map_cons, List.mem_cons]
      by_cases hj : j ∈ ws.map (·.2)
      · simp [hj]
      · rw [if_neg hj]
        by_cases hjk : j = k
        · subst hjk
          rw [if_pos (Or.inl rfl), List.getElem?_set_self (by omega), hk]
        · rw [if_neg (by simp only [hjk, false_or]; exact hj), List.getElem?_set_ne (fun h => hjk h.symm)]

theorem items_perm_run {isz : Nat} {items : List (List β)} (hi : ∀ x ∈ items, x.length = isz) {out : List β}
    (ho : out.length = items.length * isz) {ws : List (Int × List β)} (hp : ws.Perm (itemWrites isz items.zipIdx)) :
    runWrites out ws = some items.flatten := by
  obtain ⟨bl, b1, b2, rfl⟩ := exists_blocks isz items.length out ho
  -- pull the permutation back to numbered items
  obtain ⟨l, hl2, hl1⟩ : ∃ l, ws = List.map (fun p : List β × Nat => ((p.2 : Int) * isz, p.1)) l ∧ l.Perm items.zipIdx := by
    have := congrFun (congrFun (List.eq_map_comp_perm fun p : List β × Nat => ((p.2 : Int) * isz, p.1)) ws) items.zipIdx
    exact cast this.symm hp
  obtain ⟨bl', g1, g2, g3⟩ := runWrites_items hi l bl b1 b2 (fun p hp => by
    have := (hl1.mem_iff).1 hp
    obtain ⟨x, k⟩ := p
    simpa [List.mem_zipIdx_iff_getElem?] using this)
  rw [hl2]
  show runWrites _ (itemWrites isz l) = _
  rw [g1]
  congr 2
  apply List.ext_getElem?
  intro j
  rw [g3 j]
  split
  · rfl
  · next h =>
    have hj : items.length ≤ j := by
      by_contra hlt
      apply h
      rw [(hl1.map (·.2)).mem_iff]
      simp only [List.mem_map]
      exact ⟨(items[j]'(by omega), j), by simp [List.mem_zipIdx_iff_getElem?], rfl⟩
    rw [List.getElem?_eq_none (by omega), List.getElem?_eq_none hj]

/-- Chunk kernels whose writes, put together, are the numbered items: whatever the schedule, the result is the items one after
the other, and nothing outside is touched. -/
theorem fill_result {isz : Nat} {items : List (List β)} (hi : ∀ x ∈ items, x.length = isz) {out : List β}
    (ho : out.length = items.length * isz) {prog : Nat × Nat → Option (List (Int × List β))} {f : Nat × Nat → List (Int × List β)}
    {calls parts : List (Nat × Nat)} (hperm : calls.Perm parts) (hf : ∀ c ∈ parts, prog c = some (f c))
    (hall : parts.flatMap f = itemWrites isz items.zipIdx) :
    (∀ out', Result prog calls out out' ↔ out' = items.flatten) ∧ ¬ Faults prog calls out := by
  have ha : allWrites prog calls = some (calls.flatMap f) := allWrites_eq fun c hc => hf c (hperm.mem_iff.1 hc)
  have hpw : (calls.flatMap f).Perm (itemWrites isz items.zipIdx) := hall ▸ hperm.flatMap_right f
  constructor
  · intro out'
    constructor
    · rintro ⟨ws, ws', h1, h2, h3⟩
      rw [ha] at h1
      obtain rfl := Option.some.inj h1
      rw [items_perm_run hi ho (h2.trans hpw)] at h3
      exact (Option.some.inj h3).symm
    · rintro rfl
      exact ⟨_, _, ha, List.Perm.refl _, items_perm_run hi ho hpw⟩
  · rintro (h | ⟨ws, ws', h1, h2, h3⟩)
    · rw [ha] at h; cases h
    · rw [ha] at h1
      obtain rfl := Option.some.inj h1
      rw [items_perm_run hi ho (h2.trans hpw)] at h3
      cases h3

theorem write_length {out : List β} {off : Int} {x out' : List β} (h : write out off x = some out') : out'.length = out.length := by
  unfold write at h
  split at h
  · next hc =>
    obtain rfl := Option.some.inj h
    simp; omega
  · cases h

/-- One write outside is enough, whatever the order. -/
theorem runWrites_none {out : List β} {ws : List (Int × List β)} {off : Int} {x : List β} (hm : (off, x) ∈ ws)
    (hbad : ¬ (0 ≤ off ∧ off + x.length ≤ out.length)) : runWrites out ws = none := by
  induction ws generalizing out with
  | nil => simp at hm
  | cons w ws ih =>
    obtain ⟨o, y⟩ := w
    rw [runWrites]
    rcases List.mem_cons.1 hm with h | h
    · obtain ⟨rfl, rfl⟩ := Prod.mk.inj h
      unfold write; rw [if_neg hbad]; rfl
    · cases hw : write out o y with
      | none => rfl
      | some out' =>
        rw [Option.bind_eq_bind, Option.bind_some]
        exact ih h (by rw [write_length hw]; exact hbad)

theorem faults_of_write {prog : Nat × Nat → Option (List (Int × List β))} {calls : List (Nat × Nat)} {out : List β} {c : Nat × Nat} {ws : List (Int × List β)}
    {off : Int} {x : List β} (hc : c ∈ calls) (hp : prog c = some ws) (hm : (off, x) ∈ ws)
    (hbad : ¬ (0 ≤ off ∧ off + x.length ≤ out.length)) : Faults prog calls out := by
  cases ha : allWrites prog calls with
  | none => exact Or.inl ha
  | some all =>
    have : ∀ (calls : List (Nat × Nat)) (all : List (Int × List β)), c ∈ calls → allWrites prog calls = some all → (off, x) ∈ all := by
      intro calls
      induction calls with
      | nil => intro all h; simp at h
      | cons d ds ih =>
        intro all h1 h2
        rw [allWrites] at h2
        cases hd : prog d with
        | none => rw [hd] at h2; cases h2
        | some wd =>
          cases hr : allWrites prog ds with
          | none => rw [hd, hr] at h2; cases h2
          | some wr =>
            rw [hd, hr] at h2
            obtain rfl := Option.some.inj h2
            rcases List.mem_cons.1 h1 with rfl | h1
            · rw [hp] at hd; obtain rfl := Option.some.inj hd; exact List.mem_append_left _ hm
            · exact List.mem_append_right _ (ih wr h1 hr)
    exact Or.inr ⟨all, all, ha, List.Perm.refl _, runWrites_none (this calls all hc ha) hbad⟩

/-- Consecutive parts that each contribute the items `g a l` of their range contribute all items of `[a, n)` in order. -/
theorem consec_flatMap {γ : Type} {n : Nat} (g : Nat → Nat → List γ) (h0 : ∀ a, g a 0 = [])
    (hadd : ∀ a l m, g a (l + m) = g a l ++ g (a + l) m) {a : Nat} {ps : List (Nat × Nat)} (h : Consec n a ps) :
    ps.flatMap (fun c => g c.1 c.2) = g a (n - a) := by
  induction ps generalizing a with
  | nil => rw [show a = n from h]; simp [h0]
  | cons p ps ih =>
    obtain ⟨s, l⟩ := p
    obtain ⟨rfl, h⟩ := h
    have := h.le
    rw [List.flatMap_cons, ih h, show n - s = l + (n - (s + l)) by omega, hadd]

end Pnumpy.Chunks
