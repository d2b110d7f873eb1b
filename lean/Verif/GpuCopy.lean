/-
Model of the copy kernels that the periodicity handling uses on GPUs when `cupy_direct_copy=False`
(`advanced_streaming/communication.py:86-119`, `186-231`).

`normalize_slice` and the meaning of `iteration_slice` belong to pystencils and are modelled after their documented contract:
negative entries are counted from the end of the axis, a missing stop is the length of the axis, nothing is clamped. A kernel is
executed by one thread for each cell of the iteration slice; a thread loads its value and stores it later, and loads and stores of
different threads may be interleaved in any way. Not modelled: the launch of a kernel over an empty slice.
-/
import Verif.Communication
import Verif.StencilCtor

namespace Lbm
namespace GpuCopy

variable {D : ℕ}

/-- pystencils `normalize_slice`, one component (`communication.py:201-202`) -/
def normalize (L : ℤ) : Sl → Sl
  | .int i => .int (Sl.resolve L i)
  | .range a b => .range (Sl.resolve L a) (some (match b with | some b => Sl.resolve L b | none => L))

/-- `_start` (`communication.py:204-205`) -/
def start : Sl → ℤ
  | .int i => i
  | .range a _ => a

/-- `_stop` (`communication.py:207-208`) of a normalised slice; the last case does not occur for these -/
def stop (L : ℤ) : Sl → ℤ
  | .int i => i
  | .range _ (some b) => b
  | .range _ none => L

/-- is a cell, in one component, part of the iteration over a slice? -/
def Iterates (L : ℤ) (s : Sl) (z : ℤ) : Prop :=
  match normalize L s with
  | .int i => z = i
  | .range a b => a ≤ z ∧ z < b.getD L

instance (L : ℤ) (s : Sl) (z : ℤ) : Decidable (Iterates L s z) := by
  cases s
  · exact inferInstanceAs (Decidable (_ = _))
  · exact inferInstanceAs (Decidable (_ ∧ _))

/-- a copy kernel: the offset of the field access that is read, the slice of cells, the index of the population -/
structure Kernel (D Q : ℕ) where
  offset : Vec D
  slice : Fin D → Sl
  idx : Fin Q

/-- `periodic_pdf_gpu_copy_kernel` (`communication.py:186-231`) for a field whose axes have lengths `L`. The assertions on the
population index (192-193) hold since both slices of a `CopyOp` have the same one. -/
def kernel {Q : ℕ} (L : Fin D → ℤ) (op : CopyOp D Q) : Except PyErr (Kernel D Q) :=
  let src := fun k => normalize (L k) (op.src k)
  let dst := fun k => normalize (L k) (op.dst k)
  if ∀ k, start (src k) - start (dst k) = stop (L k) (src k) - stop (L k) (dst k) then
    .ok ⟨fun k => start (src k) - start (dst k), op.dst, op.idx⟩
  else .error .assertion

/-- what a thread does, one step after the other -/
inductive Event (D : ℕ) where
  | load (x : Vec D)
  | store (x : Vec D)

/-- memory and registers after an event -/
def step {Q : ℕ} {V : Type} (k : Kernel D Q) (s : (Vec D × Fin Q → V) × (Vec D → V)) : Event D → (Vec D × Fin Q → V) × (Vec D → V)
  | .load x => (s.1, fun y => if y = x then s.1 (x + k.offset, k.idx) else s.2 y)
  | .store x => (fun p => if p = (x, k.idx) then s.2 x else s.1 p, s.2)

/-- executing a kernel with a given interleaving of the threads -/
def launch {Q : ℕ} {V : Type} (k : Kernel D Q) (events : List (Event D)) (f : Vec D × Fin Q → V) (regs : Vec D → V) :
    (Vec D × Fin Q → V) × (Vec D → V) :=
  events.foldl (step k) (f, regs)

/-- interleavings that can happen: there is a thread for every cell of the slice and for no other, and a thread stores after it has
loaded -/
structure Schedule {Q : ℕ} (L : Fin D → ℤ) (k : Kernel D Q) (events : List (Event D)) : Prop where
  complete : ∀ x, (∀ a, Iterates (L a) (k.slice a) (x a)) → Event.store x ∈ events
  sound : ∀ x, Event.store x ∈ events → ∀ a, Iterates (L a) (k.slice a) (x a)
  ordered : ∀ l₁ x l₂, events = l₁ ++ Event.store x :: l₂ → Event.load x ∈ l₁

/-- all accesses of a kernel are inside of the array -/
def InBounds {Q : ℕ} (L : Fin D → ℤ) (k : Kernel D Q) : Prop :=
  ∀ x : Vec D, (∀ a, Iterates (L a) (k.slice a) (x a)) →
    ∀ a, (0 ≤ x a ∧ x a < L a) ∧ (0 ≤ x a + k.offset a ∧ x a + k.offset a < L a)

/-- `_compile_copy_kernels` (`communication.py:103-109`): the kernels of the pairs in the given order -/
def compileKernels (L : Fin D → ℤ) (S : Stencil D) (p : String) (g : ℤ) (wr : Fin S.Q → Access D S.Q) :
    List (Vec D × Fin S.Q) → Except PyErr (List (Kernel D S.Q))
  | [] => .ok []
  | (C, i) :: rest =>
    match commSlices S p g wr C i with
    | none => .error .typeError
    | some op =>
      match kernel L op with
      | .error e => .error e
      | .ok k =>
        match compileKernels L S p g wr rest with
        | .error e => .error e
        | .ok ks => .ok (k :: ks)

/-- the kernels compiled for the time step `t` (`communication.py:86-89`), for a domain of `N k` inner cells per axis with `g` ghost
layers on each side; `pairs` is an ordering of `commPairs S per` -/
def compileHook (N : Fin D → ℕ) (g : ℕ) (S : Stencil D) (p : String) (pairs : List (Vec D × Fin S.Q)) (t : ℕ) :
    Except PyErr (List (Kernel D S.Q)) :=
  match (do
    let ts ← stepTimestep p t
    let a ← getAccessor D p ts
    a.write S) with
  | none => .error .valueError
  | some wr => compileKernels (fun k => N k + 2 * g) S p g wr pairs

/-- `_periodicity_handling_gpu` (`communication.py:116-119`): one kernel after the other, each with its interleaving -/
def runKernels {Q : ℕ} {V : Type} (regs : Vec D → V) : List (Kernel D Q × List (Event D)) → (Vec D × Fin Q → V) → Vec D × Fin Q → V
  | [], f => f
  | (k, events) :: rest, f => runKernels regs rest (launch k events f regs).1

end GpuCopy
end Lbm
