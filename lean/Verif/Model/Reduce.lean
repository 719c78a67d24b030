import Verif.Model.WorkItem
/-
Reductions.  `xs` is the reduced array seen through its stride (element `i` is `xs[i]`); every read is
bounds-checked and an out-of-range read makes the result `none`.
-/
namespace Pnumpy.Reduce

/-- Memory layout of the reduced axis, as far as the code distinguishes it (the tests of /repo/src/atop/ops_binary.cpp 202, 239, 275, 327). -/
inductive Layout where
  | contiguous   -- strideIn == sizeof(T)
  | strided      -- any other nonzero stride
  | zero         -- strideIn == 0
deriving DecidableEq, Repr

/-- `LOADU` of `w` elements starting at element `p` (/repo/src/atop/ops_binary.cpp 207-208). -/
def loadVec {α : Type} (xs : List α) (w p : Nat) : Option (List α) :=
  (List.range w).mapM fun j => xs[p + j]?

/-- `while (pDataIn256 < pEnd_256) { m0 = OP(m0, p[0]); m1 = OP(m1, p[1]); p += 2; }`
(/repo/src/atop/ops_binary.cpp 211-215).  Returns the accumulators and the final position. -/
def reduceLoop {α : Type} (op : α → α → α) (xs : List α) (w pEnd p : Nat) (m0 m1 : List α) :
    Option (List α × List α × Nat) :=
  if p < pEnd ∧ 0 < w then
    match loadVec xs w p, loadVec xs w (p + w) with
    | some a, some b =>
      reduceLoop op xs w pEnd (p + 2 * w) (List.zipWith op m0 a) (List.zipWith op m1 b)
    | _, _ => none
  else some (m0, m1, p)
termination_by pEnd - p
decreasing_by omega

/-- `for (i = 0; i < perReg; i++) startval = MATH_OP(horizontal[i], startval)`
(/repo/src/atop/ops_binary.cpp 233-236; 318-321); reading past `horizontal` is `none`. -/
def horizontal {α : Type} (op : α → α → α) (reg : List α) (perReg : Nat) (start : α) : Option α :=
  (List.range perReg).foldlM (fun acc i => (reg[i]?).map fun h => op h acc) start

/-- Scalar loop `while (pDataIn1 != pEnd) startval = MATH_OP(*pDataIn1, startval)` from position `p`
(/repo/src/atop/ops_binary.cpp 241-244). -/
def reduceTail {α : Type} (op : α → α → α) (xs : List α) (p : Nat) (start : α) : α :=
  (xs.drop p).foldl (fun acc x => op x acc) start

/-- `ReduceMathOpFast` (/repo/src/atop/ops_binary.cpp 187-254), `w = sizeof(U256)/sizeof(T)`.
The vector operation is taken lane-wise to be the scalar operation. -/
def reduceFast {α : Type} (op : α → α → α) (w : Nat) (lay : Layout) (xs : List α) (start : α) :
    Option α :=
  match lay with
  | .zero => -- reads element 0 `datalen` times
    (List.range xs.length).foldlM (fun acc _ => (xs[0]?).map fun x => op x acc) start
  | .strided => some (reduceTail op xs 0 start)
  | .contiguous =>
    let chunk := 2 * w
    if xs.length ≥ chunk then
      let pEnd := chunk * (xs.length / chunk)
      match loadVec xs w 0, loadVec xs w w with
      | some a, some b =>
        match reduceLoop op xs w pEnd chunk a b with
        | some (m0, m1, p) =>
          (horizontal op (List.zipWith op m0 m1) w start).map fun s => reduceTail op xs p s
        | none => none
      | _, _ => none
    else some (reduceTail op xs 0 start)

/-- The vector part of `ReduceMathOpFastUpcast` (/repo/src/atop/ops_binary.cpp 283-322): 8 floats per
register are widened into two registers of 4 doubles (`_mm256_extractf128_ps(m, 0/1)`), the four
accumulators are merged into one register of 4 doubles, but the horizontal loop still runs
`perReg = sizeof(U256)/sizeof(DOWNCAST) = 8` times over `horizontal[4]`.
`up` is the widening conversion. -/
def upcastLoop {α β : Type} (up : α → β) (op : β → β → β) (xs : List α) (pEnd p : Nat)
    (m10 m11 m12 m13 : List β) : Option (List β × List β × List β × List β × Nat) :=
  if p < pEnd then
    match loadVec xs 8 p, loadVec xs 8 (p + 8) with
    | some a, some b =>
      upcastLoop up op xs pEnd (p + 16)
        (List.zipWith op m10 ((a.take 4).map up)) (List.zipWith op m11 ((a.drop 4).map up))
        (List.zipWith op m12 ((b.take 4).map up)) (List.zipWith op m13 ((b.drop 4).map up))
    | _, _ => none
  else some (m10, m11, m12, m13, p)
termination_by pEnd - p
decreasing_by omega

/-- `ReduceMathOpFastUpcast` (/repo/src/atop/ops_binary.cpp 260-344) for float → double. -/
def reduceFastUpcast {α β : Type} (up : α → β) (down : β → α) (op : β → β → β) (lay : Layout)
    (xs : List α) (start : α) : Option α :=
  match lay with
  | .zero => ((List.range xs.length).foldlM
      (fun acc _ => (xs[0]?).map fun x => op (up x) acc) (up start)).map down
  | .strided => some (down ((xs.map up).foldl (fun acc x => op x acc) (up start)))
  | .contiguous =>
    if xs.length ≥ 16 then
      match loadVec xs 8 0, loadVec xs 8 8 with
      | some a, some b =>
        match upcastLoop up op xs (16 * (xs.length / 16)) 16
            ((a.take 4).map up) ((a.drop 4).map up) ((b.take 4).map up) ((b.drop 4).map up) with
        | some (m10, m11, m12, m13, p) =>
          let m := List.zipWith op (List.zipWith op m10 m11) (List.zipWith op m12 m13)
          (horizontal op m 8 (up start)).map fun s =>
            down (((xs.drop p).map up).foldl (fun acc x => op x acc) s)
        | none => none
      | _, _ => none
    else some (down ((xs.map up).foldl (fun acc x => op x acc) (up start)))

/-! ### Threaded reduction -/

/-- Result buffer `pReduceOfReduce`: one cell per 16384-element block, initially unwritten. -/
abbrev Buffer (α : Type) := Nat → Option α

/-- `ReduceThreadCallbackStrided` / `ReduceThreadCallbackNumpy` (/repo/src/pnumpy/_pnumpy.cpp 359-440):
each executed block reduces its part of the array, starting from the common start value, into its own
cell.  `kernel` is the reduce function used for a block. -/
def blockPhase {α : Type} (kernel : List α → α → Option α) (xs : List α) (startVal : α)
    (calls : List (Nat × Nat)) : Buffer α :=
  calls.foldl (fun buf c => fun b =>
    if b = c.1 / Work.CHUNK then kernel ((xs.drop c.1).take c.2) startVal else buf b)
    (fun _ => none)

/-- Number of cells: `chunks = 1 + (n-1)/WORK_ITEM_CHUNK` (/repo/src/pnumpy/_pnumpy.cpp 667). -/
def chunks (n : Nat) : Nat := 1 + (n - 1) / Work.CHUNK

/-- Threaded reduce with a vectorised reduce function (/repo/src/pnumpy/_pnumpy.cpp 668-708):
`special` is `GetReduceStartVal` (604-632: 0 for add, 1 for multiply, otherwise none, in which case the
start value of every block is the original output value `init`); finally the cells are reduced with the
same function starting from `init`. -/
def threadedFast {α : Type} (op : α → α → α) (w : Nat) (lay : Layout) (special : Option α)
    (xs : List α) (init : α) (calls : List (Nat × Nat)) : Option α :=
  let startVal := special.getD init
  let buf := blockPhase (reduceFast op w lay) xs startVal calls
  match (List.range (chunks xs.length)).mapM buf with
  | some cells => reduceFast op w .contiguous cells init
  | none => none

/-- numpy's own inner reduce loop (`pOldFunc` with steps[0] = steps[2] = 0): `io1 = op(io1, in2)`.
Assumed behaviour of the saved numpy loop (called at /repo/src/pnumpy/_pnumpy.cpp 390-445). -/
def numpyReduce {α : Type} (op : α → α → α) (xs : List α) (init : α) : α := xs.foldl op init

/-- Threaded reduce falling back to numpy's loop (/repo/src/pnumpy/_pnumpy.cpp 710-738).  The final call
passes the *original* `steps`, so the packed result buffer is read with the stride of the input
array: cell `b` is taken from position `b * ratio`, where `ratio` = steps[1] / itemsize
(steps[1] a multiple of the item size; other strides read straddling bytes and are not modelled).
Reading outside the buffer is `none`. -/
def threadedNumpy {α : Type} (op : α → α → α) (special : Option α) (ratio : Int)
    (xs : List α) (init : α) (calls : List (Nat × Nat)) : Option α :=
  let startVal := special.getD init
  let buf := blockPhase (fun l s => some (numpyReduce op l s)) xs startVal calls
  let cell (b : Nat) : Option α :=
    let pos := (b : Int) * ratio
    if 0 ≤ pos ∧ pos < chunks xs.length then buf pos.toNat else none
  match (List.range (chunks xs.length)).mapM cell with
  | some cells => some (numpyReduce op cells init)
  | none => none

end Pnumpy.Reduce
