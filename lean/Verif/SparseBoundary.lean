/-
Model of boundary conditions on cell lists: `SparseLbBoundaryMapper` (`sparse/mapping.py:157-241`), and of the setter and
getter of macroscopic values on lists (`sparse/update_rule_sparse.py:54-80`).

A boundary condition is a list of assignments to populations. The accesses of an assignment have an offset and an index,
both of which may depend on the direction of the link, and the right hand side is an arbitrary function of the values
read. Not modelled: how sympy stores these expressions (they are functions of the direction here, so two expressions with
the same value at every direction are one offset), and the enumeration of the links by `create_boundary_index_list` of
pystencils (the list of links is an argument; what is assumed of it is stated with the theorems).
-/
import Verif.Sparse
import Verif.Macroscopic

namespace Lbm

variable {D Q : ℕ} {V : Type}

/-- number of parameters of `__call__` of every boundary condition of the package, `self` not counted
(`boundaries/boundaryconditions.py:35`, 128, 188, 294, 468, 608, 794, 884, 1016, 1064, 1159, 1202, 1235):
`f_out, f_in, dir_symbol, inv_dir, lb_method, index_field, force_vector` -/
def boundaryParameters : ℕ := 7

/-- number of arguments `SparseLbBoundaryMapper` passes (`mapping.py:166,177`): field, direction, method and index field -/
def mapperArguments : ℕ := 4

/-- calling a Python function without default values -/
def callWith (parameters arguments : ℕ) : Except PyErr Unit := if parameters = arguments then .ok () else .error .typeError

/-- access to the populations: offset (as many entries as the field has dimensions) and index -/
structure LinkAccess (Q : ℕ) where
  offset : Fin Q → List ℤ
  index : Fin Q → Fin Q

/-- assignment of a boundary condition: populations accessed, and `data`: does the right hand side read the additional data
field -/
structure LinkAssignment (Q : ℕ) (V : Type) where
  lhs : LinkAccess Q
  reads : List (LinkAccess Q)
  data : Bool
  rhs : Fin Q → List V → V

/-- offsets of all field accesses of an assignment; the additional data field is one-dimensional, its offset is `(0,)`
(`mapping.py:164-167`) -/
def LinkAssignment.offsets (a : LinkAssignment Q V) : List (Fin Q → List ℤ) :=
  a.lhs.offset :: a.reads.map (·.offset) ++ if a.data then [fun _ => [0]] else []

/-- `neighbor_offsets`, without repetitions (`mapping.py:167-168`); the order of a Python set is not determined, any order
gives the same kernel -/
def neighborOffsets (eqs : List (LinkAssignment Q V)) : List (Fin Q → List ℤ) := (eqs.flatMap (·.offsets)).dedup

/-- entry of the index list: direction and indices of the neighbour cells (`mapping.py:170-175`); the entries of the
additional data are allocated with `np.empty` and never set (lines 217, 231, 233) -/
structure LinkEntry (Q : ℕ) where
  dir : Fin Q
  nidx : List ℕ

/-- `neighbor_coordinates[coord_name] += offsets[:, i][idx_arr['dir']]` (`mapping.py:229-230`) -/
def shiftCell (x : Vec D) (o : List ℤ) : Vec D := fun i => x i + o.getD i.val 0

/-- `create_index_arr` (`mapping.py:210-235`) for the links given; `assembled` says if the mapping has been used before:
`cell_idx_bulk` (`mapping.py:63-68`) does not assemble the coordinates itself. An offset with less entries than the
dimension has no column `i` (line 230). If both errors are possible, the order of the set decides which one is raised. -/
def createIndexArr (m : SparseMapper D) (assembled : Bool) (eqs : List (LinkAssignment Q V))
    (links : List (Vec D × Fin Q)) : Except PyErr (List (LinkEntry Q)) :=
  if !assembled && !(neighborOffsets eqs).isEmpty then .error .attributeError
  else if ∃ o ∈ neighborOffsets eqs, ∃ d, (o d).length < D then .error .indexError
  else links.mapM fun l => do
    let idx ← (neighborOffsets eqs).mapM fun o => m.cellIdxBulk (shiftCell l.1 (o l.2))
    pure ⟨l.2, idx⟩

/-- number of an offset in `neighbor_offsets` (`offset_subs`, `mapping.py:179`) -/
def offsetNumber (eqs : List (LinkAssignment Q V)) (a : LinkAccess Q) : ℕ := (neighborOffsets eqs).idxOf a.offset

/-- address of an access of the transformed equations: `absolute_access([index_field(nidx)], index)` (`mapping.py:183-188`) -/
def sparseAddr (L : ListLayout) (eqs : List (LinkAssignment Q V)) (e : LinkEntry Q) (a : LinkAccess Q) : ℕ :=
  L.addr (e.nidx.getD (offsetNumber eqs a) 0) (a.index e.dir).val

/-- the kernel made of `assignments()` (`mapping.py:237-241`): all assignments, link by link -/
def sparseBoundary (L : ListLayout) (eqs : List (LinkAssignment Q V)) (entries : List (LinkEntry Q)) (mem : ℕ → V) : ℕ → V :=
  entries.foldl (fun mem e => eqs.foldl (fun mem a =>
    Function.update mem (sparseAddr L eqs e a.lhs) (a.rhs e.dir (a.reads.map fun r => mem (sparseAddr L eqs e r)))) mem) mem

/-! ### Setter and getter -/

/-- the argument `velocity` of the setter; according to its documentation `True` reads the values from an array -/
inductive VelocityArg (K : Type) (D : ℕ) where
  | flag
  | value (u : Fin D → K)

variable {K : Type} [Field K]

/-- `create_macroscopic_value_setter_sparse` (`update_rule_sparse.py:67-80`), values of one cell: `True[:dim]` raises -/
noncomputable def setterSparse [DecidableEq K] {P : Type} (m : MomentMethod K P Q) (meqOf : Macro K D → P → K) (cq : Cqc K D)
    (density : K) : VelocityArg K D → Except PyErr (Fin Q → K)
  | .flag => .error .typeError
  | .value u => ({ m with meq := fun _ => meqOf (cq.initValues density u) } : MomentMethod K P Q).getEquilibrium.map
      fun r => r 0

/-- the setter as a kernel over all cells of the list, density and velocity given per cell -/
noncomputable def setSparse [DecidableEq K] {P : Type} (L : ListLayout) (m : MomentMethod K P Q) (meqOf : Macro K D → P → K)
    (cq : Cqc K D) (density : ℕ → K) (velocity : ℕ → Fin D → K) (cells : List ℕ) (mem : ℕ → K) : Except PyErr (ℕ → K) :=
  cells.foldlM (fun mem k => (setterSparse m meqOf cq (density k) (.value (velocity k))).map fun f =>
    sparseWrite L k f mem) mem

/-- `create_macroscopic_value_getter_sparse` (`update_rule_sparse.py:54-64`) at cell `k` -/
def getterSparse (L : ListLayout) (cq : Cqc K D) (csSq : K) (c : Fin Q → Fin D → K) (mem : ℕ → K) (k : ℕ) :
    Cqc.Output K D := cq.output csSq c fun i => mem (L.addr k i.val)

end Lbm
