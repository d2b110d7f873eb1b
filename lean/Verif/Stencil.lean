/-
Model of `lbmpy/stencils.py` (class `LBStencil`): the velocity sets every kernel is built from.
-/
import Mathlib.Data.Fin.Basic
import Mathlib.Data.List.FinRange
import Mathlib.Algebra.Group.Pi.Basic
import Mathlib.Algebra.Group.Int.Defs
import Mathlib.Data.Fin.VecNotation
import Mathlib.Data.Fintype.Pi

namespace Lbm

/-- A lattice velocity / offset: a python tuple of `D` ints (`stencils.py:24-47`). -/
abbrev Vec (D : ℕ) := Fin D → ℤ

/-- `LBStencil` (`stencils.py:8-47`): `Q` velocities `c 0, …, c (Q-1)`.
The constructor's checks (equal lengths, no duplicates) are modelled in `Verif/StencilCtor.lean`;
equal lengths are built into the type here, absence of duplicates is the predicate `Stencil.Valid`.
The `ordering` tag is not part of this structure. -/
structure Stencil (D : ℕ) where
  /-- number of velocities, `LBStencil.Q` (`stencils.py:53-55`) -/
  Q : ℕ
  /-- the velocities, `LBStencil.__getitem__` (`stencils.py:83-84`) -/
  c : Fin Q → Vec D

namespace Stencil
variable {D : ℕ}

/-- The stencil with the given entries, `LBStencil.__init__` (`stencils.py:24-47`) after validation. -/
def ofList (l : List (Vec D)) : Stencil D := ⟨l.length, l.get⟩

/-- A stencil from integer lists of length `D` (python's tuples of tuples, `stencils.py:62-77`); that the tables
have entries of that length is proved in `Props/StencilProps.lean`. -/
def ofInts (D : ℕ) (l : List (List ℤ)) : Stencil D :=
  ofList (l.map fun e k => e.getD k 0)

/-- `LBStencil.index` (`stencils.py:74-76`): position of the first entry equal to `d`;
`none` stands for the `ValueError` of `tuple.index`. -/
def index (S : Stencil D) (d : Vec D) : Option (Fin S.Q) :=
  (List.finRange S.Q).find? (fun j => S.c j = d)

/-- `LBStencil.inverse_index` (`stencils.py:78-81`): position of `-d`. -/
def inverseIndex (S : Stencil D) (d : Vec D) : Option (Fin S.Q) := S.index (-d)

/-- What the constructor guarantees (`stencils.py:41-43`): no duplicated entries. -/
def Valid (S : Stencil D) : Prop := Function.Injective S.c

/-- The stencil contains with each velocity its reverse (needed by every in-place pattern). -/
def InvClosed (S : Stencil D) : Prop := ∀ i, ∃ j, S.c j = -S.c i

instance (S : Stencil D) : Decidable S.Valid :=
  inferInstanceAs (Decidable (∀ _ _, _ → _))
instance (S : Stencil D) : Decidable S.InvClosed :=
  inferInstanceAs (Decidable (∀ _, ∃ _, _))

theorem index_eq_some {S : Stencil D} (hv : S.Valid) {d : Vec D} {j : Fin S.Q} :
    S.index d = some j ↔ S.c j = d := by
  unfold index
  constructor
  · intro h
    have := List.find?_some h
    simpa using this
  · intro h
    subst h
    cases hf : (List.finRange S.Q).find? (fun k => decide (S.c k = S.c j)) with
    | none =>
      rw [List.find?_eq_none] at hf
      have := hf j (List.mem_finRange j)
      simp at this
    | some k =>
      have h := List.find?_some hf
      have h' : S.c k = S.c j := by simpa using h
      rw [hv h']

theorem index_c {S : Stencil D} (hv : S.Valid) (j : Fin S.Q) : S.index (S.c j) = some j :=
  (index_eq_some hv).2 rfl

theorem index_eq_none {S : Stencil D} {d : Vec D} : S.index d = none ↔ ∀ j, S.c j ≠ d := by
  unfold index; simp [List.find?_eq_none]

end Stencil

end Lbm
