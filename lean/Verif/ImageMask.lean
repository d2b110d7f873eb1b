/-
Model of `add_black_and_white_image` (`geometry.py:193-261`): sizes and place of the image and the mask callback.

`slice_intersection`, `shift_slice` (pystencils) and the size of the result of `scipy.ndimage.zoom` are written out; real numbers instead of floats.
Reading, turning, zooming and thresholding the image are left out: the image is the array of its black pixels after zooming.
-/
import Verif.Geometry

namespace Lbm
namespace ImageMask

open Geometry

/-- the zoom factors of both axes (`geometry.py:223-225`); `image` and `target` are the sizes along an axis -/
def zoomFactor (image target : Fin 2 → ℕ) (keepAspect : Bool) (i : Fin 2) : ℚ :=
  if keepAspect then min ((target 0 : ℚ) / image 0) ((target 1 : ℚ) / image 1) else (target i : ℚ) / image i

/-- the size after `zoom` (line 226): rounded -/
def zoomedSize (image target : Fin 2 → ℕ) (keepAspect : Bool) (i : Fin 2) : ℤ :=
  pyRound (image i * zoomFactor image target keepAspect i)

/-- The image in an array of the target size (`geometry.py:233-238`). The comparison of the tuple with a list is always true, so this is done in
every case. A larger image does not fit into the slice: `ValueError`. -/
def resized (target size : Fin 2 → ℤ) (image : ℤ → ℤ → Bool) : Except PyErr (ℤ → ℤ → Bool) :=
  if size 0 ≤ target 0 ∧ size 1 ≤ target 1 then
    let mid := fun i => (target i - size i) / 2
    .ok fun x y => if (mid 0 ≤ x ∧ x < size 0 + mid 0) ∧ (mid 1 ≤ y ∧ y < size 1 + mid 1) then image (x - mid 0) (y - mid 1) else false
  else .error .valueError

/-- a slice as start and stop -/
abbrev Slice := ℤ × ℤ

variable {D : ℕ}

/-- one axis of `slice_intersection` -/
def meet (a b : Slice) : Slice := (max a.1 b.1, min a.2 b.2)

/-- `callback` (`geometry.py:240-257`) for the block with the cells `block`, at the cell with index `l` in the block; `image` is `image_slice`,
`plane` are the two axes, different from each other. The axes of the image are taken in ascending order (line 255). Simplified: `zoomed` is given
on all of `ℤ × ℤ`; that numpy raises for an array whose size does not match the region is left out. -/
def callback (block image : Fin D → Slice) (plane : Fin D × Fin D) (zoomed : ℤ → ℤ → Bool) (l : Fin D → ℤ) : Bool :=
  if ∃ i, (meet (block i) (image i)).2 < (meet (block i) (image i)).1 then false
  else
    let start := fun i => (meet (block i) (image i)).1
    let stop := fun i => (meet (block i) (image i)).2
    let inside := fun i => start i - (block i).1 ≤ l i ∧ l i < stop i - (block i).1
    let pixel := fun i => (l i - (start i - (block i).1)) + (start i - (image i).1)
    if inside plane.1 ∧ inside plane.2 then zoomed (pixel (min plane.1 plane.2)) (pixel (max plane.1 plane.2)) else false

end ImageMask
end Lbm
