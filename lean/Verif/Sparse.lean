/-
Model of the list-based (sparse) storage: `sparse/mapping.py` (`SparseLbMapper`) and `sparse/update_rule_sparse.py`.

numpy parts assumed: `argwhere` enumerates the non-zero entries in row-major order; structured arrays are compared field by
field; `argsort` gives a permutation that sorts; `searchsorted` with side left (right) gives the number of leading
entries that are smaller than (not larger than) the key.  Integers do not overflow their 32-bit types; a negative
neighbour coordinate, which becomes a huge unsigned number, is an index out of bounds.
-/
import Verif.Streaming
import Verif.StencilCtor
import Mathlib.Data.Fin.Tuple.Basic
import Mathlib.Data.List.Sort

namespace Lbm

variable {D : ℕ}

/-- field-by-field comparison of coordinates -/
def coordLt : {D : ℕ} → Vec D → Vec D → Bool
  | 0, _, _ => false
  | _ + 1, a, b => decide (a 0 < b 0) || (decide (a 0 = b 0) && coordLt (Fin.tail a) (Fin.tail b))

/-- all coordinates of an array of the given shape, row-major -/
def allCells : {D : ℕ} → (Fin D → ℕ) → List (Vec D)
  | 0, _ => [Fin.elim0]
  | _ + 1, shape => (List.range (shape 0)).flatMap fun x : ℕ => (allCells (Fin.tail shape)).map (Fin.cons (x : ℤ))

/-- an array of flags: shape and values -/
structure FlagArray (D : ℕ) where
  shape : Fin D → ℕ
  flag : Vec D → ℕ

/-- `flag_arr[tuple(..)]`; out of bounds raises `IndexError` -/
def FlagArray.get (F : FlagArray D) (x : Vec D) : Except PyErr ℕ :=
  if ∀ i, 0 ≤ x i ∧ x i < F.shape i then .ok (F.flag x) else .error .indexError

/-- `np.argwhere(np.bitwise_and(flag_arr, mask))` -/
def FlagArray.argwhere (F : FlagArray D) (mask : ℕ) : List (Vec D) :=
  (allCells F.shape).filter fun x => F.flag x &&& mask != 0

/-- arguments of `SparseLbMapper` (`mapping.py:19-28`) -/
structure SparseMapper (D : ℕ) where
  stencil : Stencil D
  flags : FlagArray D
  fluid : ℕ
  noSlip : ℕ
  boundary : ℕ

namespace SparseMapper

/-- `_num_fluid_cells` (`mapping.py:94`) -/
def numFluid (m : SparseMapper D) : ℕ := (m.flags.argwhere m.fluid).length

/-- `_coordinate_arr` (`mapping.py:92-101`) -/
def coords (m : SparseMapper D) : List (Vec D) := m.flags.argwhere m.fluid ++ m.flags.argwhere m.boundary

/-- `fluid_coordinates` (`mapping.py:38-41`) -/
def fluidCoords (m : SparseMapper D) : List (Vec D) := m.coords.take m.numFluid

/-- `len(mapping)` (`mapping.py:81-84`) -/
def len (m : SparseMapper D) : ℕ := m.coords.length

/-- `_sorter` (`mapping.py:103`) -/
def sorter (m : SparseMapper D) : List (Fin m.coords.length) :=
  (List.finRange m.coords.length).insertionSort fun i j => (!coordLt (m.coords.get j) (m.coords.get i)) = true

/-- `np.searchsorted(_coordinate_arr, x, sorter=_sorter, side=..)` -/
def searchLeft (m : SparseMapper D) (x : Vec D) : ℕ :=
  ((m.sorter.map m.coords.get).takeWhile fun y => coordLt y x).length

@[inherit_doc searchLeft]
def searchRight (m : SparseMapper D) (x : Vec D) : ℕ :=
  ((m.sorter.map m.coords.get).takeWhile fun y => !coordLt x y).length

/-- `cell_idx` (`mapping.py:51-61`) -/
def cellIdx (m : SparseMapper D) (x : Vec D) : Except PyErr ℕ :=
  if m.searchLeft x + 1 ≠ m.searchRight x then .error .indexError
  else
    match m.sorter[m.searchLeft x]? with
    | some k => .ok k
    | none => .error .indexError

/-- `cell_idx_bulk` (`mapping.py:63-68`) on one coordinate, after `_assemble`: index -1 is the last entry -/
def cellIdxBulk (m : SparseMapper D) (x : Vec D) : Except PyErr ℕ :=
  if m.searchLeft x + 1 ≠ m.searchRight x then
    match m.sorter.getLast? with
    | some k => .ok k
    | none => .error .indexError
  else
    match m.sorter[m.searchLeft x]? with
    | some k => .ok k
    | none => .error .indexError

/-- `coordinate` (`mapping.py:70-79`), for non-negative indices -/
def coordinate (m : SparseMapper D) (k : ℕ) : Except PyErr (Vec D) :=
  match m.coords[k]? with
  | some x => .ok x
  | none => .error .indexError

/-- `pdf_index` (`mapping.py:110-111`) -/
def pdfIndex (m : SparseMapper D) (cell : ℕ) (dir : Fin m.stencil.Q) : ℕ := cell + dir.val * m.len

/-- wrapping of the coordinates at the border (`mapping.py:138-145`): new coordinate and `at_border` -/
def wrapCoord (gl : ℕ) (shape : ℕ) (x : ℤ) : ℤ × Bool :=
  if x = (gl : ℤ) - 1 then (x + ((shape : ℤ) - 2 * gl), true)
  else if x = (shape : ℤ) - gl then (x - ((shape : ℤ) - 2 * gl), true)
  else (x, false)

/-- one entry of the index list (`mapping.py:127-151`): own index and coordinate of a fluid cell, direction -/
def indexEntry (m : SparseMapper D) (gl : ℕ) (own : ℕ) (cell : Vec D) (dir : Fin m.stencil.Q) : Except PyErr ℕ := do
  let y := cell - m.stencil.c dir
  let f ← m.flags.get y
  if f &&& (m.boundary ||| m.fluid) != 0 then
    return m.pdfIndex (← m.cellIdx y) dir
  else if f &&& m.noSlip != 0 then
    match m.stencil.inverseIndex (m.stencil.c dir) with
    | some j => return m.pdfIndex own j
    | none => .error .valueError
  else if ∃ i, (wrapCoord gl (m.flags.shape i) (y i)).2 = true then
    let z : Vec D := fun i => (wrapCoord gl (m.flags.shape i) (y i)).1
    let g ← m.flags.get z
    if g &&& (m.boundary ||| m.fluid) != 0 then
      return m.pdfIndex (← m.cellIdx z) dir
    else .error .assertion
  else .error .valueError

/-- the entries of one direction for all fluid cells; `none` for the rest direction (`mapping.py:121-126`) -/
def indexRow (m : SparseMapper D) (gl : ℕ) (dir : Fin m.stencil.Q) : Except PyErr (Option (List ℕ)) :=
  if m.stencil.c dir = 0 then
    if dir.val = 0 then .ok none else .error .assertion
  else do return some (← (m.fluidCoords.zipIdx).mapM fun e => m.indexEntry gl e.2 e.1 dir)

/-- `create_index_array` (`mapping.py:106-156`): row `k` of the result belongs to fluid cell `k`, column `d` to direction
`d + 1`; here as one list per direction. `reshape` fails if the number of entries does not fit. -/
def createIndexArray (m : SparseMapper D) (gl : ℕ) : Except PyErr (List (List ℕ)) := do
  let rows ← (List.finRange m.stencil.Q).mapM fun dir => m.indexRow gl dir
  let rows := rows.filterMap id
  if (rows.map List.length).sum = (m.stencil.Q - 1) * m.numFluid then return rows else .error .valueError

end SparseMapper

/-! ### Update rule -/

/-- memory layout of a list with `Q` values per cell: strides of cell and value index
(`update_rule_sparse.py:8-20`; `(1, N)` for SoA, `(Q, 1)` for AoS) -/
structure ListLayout where
  s0 : ℕ
  s1 : ℕ

/-- `compute_strides` for the layouts of `create_symbolic_list` (`update_rule_sparse.py:8-20`) -/
def listLayout (aos : Bool) (N Q : ℕ) : ListLayout := if aos then ⟨Q, 1⟩ else ⟨1, N⟩

/-- address of `field(i)` at cell `k` -/
def ListLayout.addr (L : ListLayout) (k i : ℕ) : ℕ := k * L.s0 + i * L.s1

/-- pre-collision values of cell `k` (`_list_substitutions`, `update_rule_sparse.py:83-92`): direction 0 from the cell,
the others with `absolute_access((idx(i - 1),), ())`, whose address is the list entry times the cell stride -/
def sparseRead {V : Type} {Q : ℕ} (L : ListLayout) (idx : ℕ → ℕ → ℕ) (src : ℕ → V) (k : ℕ) (i : Fin Q) : V :=
  if i.val = 0 then src (L.addr k 0) else src (idx k (i.val - 1) * L.s0)

/-- write the values of one cell -/
def sparseWrite {V : Type} {Q : ℕ} (L : ListLayout) (k : ℕ) (v : Fin Q → V) (dst : ℕ → V) : ℕ → V :=
  (List.finRange Q).foldl (fun d i => Function.update d (L.addr k i.val) (v i)) dst

/-- kernel of `create_lb_update_rule_sparse` (`update_rule_sparse.py:23-53`) for `stream_pull_collide`, and for
`stream_pull_only` with the identity as collision; runs over the fluid cells -/
def sparseSweep {V : Type} {Q : ℕ} (L : ListLayout) (idx : ℕ → ℕ → ℕ) (collide : (Fin Q → V) → Fin Q → V)
    (cells : List ℕ) (src dst : ℕ → V) : ℕ → V :=
  cells.foldl (fun d k => sparseWrite L k (collide (sparseRead L idx src k)) d) dst

/-- the same function with `kernel_type='collide_only'` (`update_rule_sparse.py:49-53`): only the target of the writes
is changed to `src` -/
def sparseCollideOnly {V : Type} {Q : ℕ} (L : ListLayout) (idx : ℕ → ℕ → ℕ) (collide : (Fin Q → V) → Fin Q → V)
    (cells : List ℕ) (src : ℕ → V) : ℕ → V :=
  cells.foldl (fun s k => sparseWrite L k (collide (sparseRead L idx s k)) s) src

end Lbm
