import Verif.Sweep
import Mathlib.Logic.Relation
import Mathlib.Data.List.Sort

/-!
# Split groups of the inner loop

`create_lbm_split_groups` (`innerloopsplit.py`, lines 9-70), and what the groups are used for: pystencils'
`split_inner_loop` makes one loop over the line of cells per group, which computes the symbols of the group and what
they need; symbols of a group that are not field accesses are kept in arrays and reused by the later loops.  That
transformation is not part of lbmpy; `splitLine` below is its effect on the populations.
-/

namespace Lbm
namespace SplitGroups

variable {Sym : Type} [DecidableEq Sym]

/-- What `create_lbm_split_groups` looks at in a collision rule: left-hand sides and the symbols of the right-hand
sides, the symbols of the method and the hint `velocity`. -/
structure Rule (Sym : Type) where
  subexpressions : List (Sym × List Sym)
  main : List (Sym × List Sym)
  pre : List Sym
  post : List Sym
  velocity : List Sym
  isFieldAccess : Sym → Bool

/-- `b` is needed directly to compute `a`. -/
def Rule.Needs (r : Rule Sym) (a b : Sym) : Prop :=
  ∃ e ∈ r.subexpressions ++ r.main, e.1 = a ∧ b ∈ e.2

/-- `pre_collision_symbols.intersection(cr.dependent_symbols([s]))` is not empty (line 33): pystencils'
`dependent_symbols` collects everything needed for `s`, `s` included. -/
def Rule.UsesPdf (r : Rule Sym) (s : Sym) : Prop :=
  ∃ p ∈ r.pre, Relation.ReflTransGen r.Needs s p

open Classical in
/-- `important_sub_expressions` after the loop (lines 32-43), sorted by name (lines 45-46). -/
noncomputable def Rule.precomputed (r : Rule Sym) (le : Sym → Sym → Bool) : List Sym :=
  let important := (r.subexpressions.map Prod.fst).filter fun s => r.UsesPdf s
  let nonCenter := r.post.tail
  let important := r.main.foldl
    (fun imp e => if e.1 ∈ nonCenter then imp.filter fun s => s ∈ e.2 else imp) important
  (important ++ r.velocity).dedup.mergeSort le

/-- `other_written_fields` (lines 35-38). -/
def Rule.otherFields (r : Rule Sym) : List Sym :=
  (r.main.map Prod.fst).filter fun s => s ∉ r.post && r.isFieldAccess s

/-- The opposite direction (line 58). -/
def neg (d : List ℤ) : List ℤ := d.map fun i => -i

/-- One round of the loop over the directions (lines 54-63): the dictionary is a list of keys and values in
order of insertion. -/
def addDirection (groups : List (List ℤ × List Sym)) (d : List ℤ) (s : Sym) : List (List ℤ × List Sym) :=
  let key := if neg d ∈ groups.map Prod.fst then neg d else d
  if key ∈ groups.map Prod.fst then
    groups.map fun g => if g.1 = key then (g.1, g.2 ++ [s]) else g
  else groups ++ [(key, [s])]

/-- The first group and the dictionary after the loop (lines 49-63). -/
def directionGroups (first : List Sym) (dirs : List (List ℤ × Sym)) : List Sym × List (List ℤ × List Sym) :=
  dirs.foldl
    (fun acc e =>
      if e.1 = List.replicate e.1.length 0 then (acc.1 ++ [e.2], acc.2)
      else (acc.1, addDirection acc.2 e.1 e.2))
    (first, [])

/-- `create_lbm_split_groups` (lines 9-70); a missing hint `velocity` is an assertion (line 24), not modelled. -/
noncomputable def create (r : Rule Sym) (le : Sym → Sym → Bool) (stencil : List (List ℤ)) (opposing : Bool) :
    List (List Sym) :=
  let first := r.precomputed le ++ r.otherFields
  if opposing then
    let res := directionGroups first (stencil.zip (r.main.map Prod.fst))
    res.1 :: res.2.map Prod.snd
  else first :: r.main.map fun e => [e.1]

/-! ### The split loop -/

section loop
variable {D : ℕ} {G V P : Type} [AddCommGroup G] [DecidableEq G] {Q : ℕ}

/-- One cell in the loop of one group: the results of the directions of the group are stored. `view` is the array
the populations are read from when the current array is given: itself, or the source array. -/
def storeGroup (φ : Vec D →+ G) (rd wr : Fin Q → Access D Q) (view : (G × Fin Q → V) → G × Fin Q → V)
    (C : (Fin Q → V) → Fin Q → V) (x : G) (group : List (Fin Q)) (f : G × Fin Q → V) : G × Fin Q → V :=
  let out := C fun j => view f (loc φ x (rd j))
  group.foldl (fun f i => Function.update f (loc φ x (wr i)) (out i)) f

/-- The loop of the first group: computes the quantities `pre` of each cell and keeps them, and stores the results
of the directions of this group. -/
def firstLoop (φ : Vec D →+ G) (rd wr : Fin Q → Access D Q) (view : (G × Fin Q → V) → G × Fin Q → V)
    (pre : G → (Fin Q → V) → P) (C : G → P → (Fin Q → V) → Fin Q → V) (group : List (Fin Q)) (line : List G)
    (s : (G × Fin Q → V) × (G → P)) : (G × Fin Q → V) × (G → P) :=
  line.foldl
    (fun s x =>
      let p := pre x fun j => view s.1 (loc φ x (rd j))
      (storeGroup φ rd wr view (C x p) x group s.1, Function.update s.2 x p))
    s

/-- The loop of another group: uses the kept quantities. -/
def laterLoop (φ : Vec D →+ G) (rd wr : Fin Q → Access D Q) (view : (G × Fin Q → V) → G × Fin Q → V)
    (C : G → P → (Fin Q → V) → Fin Q → V) (reg : G → P) (line : List G) (f : G × Fin Q → V)
    (group : List (Fin Q)) : G × Fin Q → V :=
  line.foldl (fun f x => storeGroup φ rd wr view (C x (reg x)) x group f) f

/-- The split loop over one line of cells. -/
def splitLine (φ : Vec D →+ G) (rd wr : Fin Q → Access D Q) (view : (G × Fin Q → V) → G × Fin Q → V)
    (pre : G → (Fin Q → V) → P) (C : G → P → (Fin Q → V) → Fin Q → V) (first : List (Fin Q))
    (groups : List (List (Fin Q))) (reg : G → P) (line : List G) (f : G × Fin Q → V) : G × Fin Q → V :=
  let s := firstLoop φ rd wr view pre C first line (f, reg)
  groups.foldl (laterLoop φ rd wr view C s.2 line) s.1

end loop

end SplitGroups
end Lbm
