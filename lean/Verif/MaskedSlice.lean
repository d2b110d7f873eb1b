/-
Model of the masks in `LatticeBoltzmannStep._get_slice` and `density_slice` (`lbstep.py:228-250`).

Arrays are a shape and the values in C order.  `gather_array` and `get_mask` (pystencils) give the arrays; `squeeze` at the end, which keeps the
values in C order, is left out.
-/
import Verif.StencilCtor
import Mathlib.Algebra.BigOperators.Group.List.Basic

namespace Lbm
namespace MaskedSlice

/-- a numpy array: the value at each index in C order (arbitrary beyond the size) -/
structure Arr where
  shape : List ℕ
  data : ℕ → Bool

/-- `np.repeat(a, count, axis)`; a missing axis is an error -/
def npRepeat (a : Arr) (count axis : ℕ) : Except PyErr Arr :=
  match a.shape[axis]? with
  | none => .error .indexError
  | some n =>
    let inside := (a.shape.drop (axis + 1)).prod
    .ok ⟨a.shape.set axis (n * count), fun f =>
      a.data ((f / (n * count * inside) * n + f / inside % (n * count) / count) * inside + f % inside)⟩

/-- the mask of `np.ma.masked_array` for data of a shape: one value is used everywhere, a mask of the same size is reshaped, others raise a
`MaskError` -/
def maskedArray (shape : List ℕ) (mask : Arr) : Except PyErr Arr :=
  if mask.shape = shape then .ok mask
  else if mask.shape.prod = 1 then .ok ⟨shape, fun _ => mask.data 0⟩
  else if mask.shape.prod = shape.prod then .ok ⟨shape, mask.data⟩
  else .error .exception

/-- the mask of the result of `_get_slice` (`lbstep.py:234-241`) with `masked=True`; `shape` is the shape of the gathered array -/
def sliceMask (shape : List ℕ) (mask : Arr) : Except PyErr Arr :=
  if mask.shape.length < shape.length then
    if mask.shape.length + 1 = shape.length then
      (npRepeat ⟨mask.shape ++ [1], mask.data⟩ (shape.getLastD 0) 2).bind fun m => maskedArray shape m
    else .error .assertion
  else maskedArray shape mask

/-- the slice that `density_slice` passes on (`lbstep.py:247-250`), its entries being numbered -/
def densitySlice (dataIndex : Option ℕ) (slice : Option (List ℕ)) : Except PyErr (Option (List ℕ)) :=
  match dataIndex, slice with
  | none, s => .ok s
  | some i, some s => .ok (some (s ++ [i]))
  | some _, none => .error .typeError

end MaskedSlice
end Lbm
