/-
Model of `advanced_streaming/indexing.py` (class `BetweenTimestepsIndexing`): how the proxies `f_out`, `f_in` of a
boundary condition are translated to accesses of the population array, with compile-time or run-time directions.
-/
import Verif.Sweep

namespace Lbm

variable {D : ℕ}

/-- The two proxy fields (`indexing.py:20-21`, keys `'out'`, `'in'` of `_accesses`, `indexing.py:47`). -/
inductive FDir | out | inn
  deriving DecidableEq, Repr

/-- `BetweenTimestepsIndexing._accesses` (`indexing.py:44-47`). -/
structure Indexing (S : Stencil D) where
  out : Fin S.Q → Access D S.Q
  inn : Fin S.Q → Access D S.Q

namespace Indexing
variable {S : Stencil D}

/-- `inverse_dir_index` (`utility.py:94-95`). -/
def inverseDirIndex (S : Stencil D) (i : Fin S.Q) : Option (Fin S.Q) := S.index (-S.c i)

/-- The constructor (`indexing.py:36-61`). `none` is any exception: in-place pattern with `Timestep.BOTH`, unknown
pattern, a failing accessor, or a failing inverse look-up in `_collect_trivial_translations` (line 61). -/
def make (S : Stencil D) (p : String) (prev : Timestep) : Option (Indexing S) := do
  if prev = .both ∧ (← isInplace p) then none
  else
    let a ← getAccessor D p prev
    let b ← getAccessor D p prev.next
    let w ← a.write S
    let r ← b.read S
    let _ ← collect (inverseDirIndex S)
    return ⟨w, r⟩

/-- `self._accesses[f_dir]`. -/
def acc (ix : Indexing S) : FDir → Fin S.Q → Access D S.Q
  | .out => ix.out
  | .inn => ix.inn

/-- The accesses tabulated by `_get_translated_indices_and_offsets(f_dir, inv)` (`indexing.py:138-150`). -/
def translated (ix : Indexing S) (k : FDir × Bool) : Option (Fin S.Q → Access D S.Q) :=
  if k.2 then do
    let inv ← collect (inverseDirIndex S)
    return fun i => ix.acc k.1 (inv i)
  else some (ix.acc k.1)

/-- First component of `_get_translated_indices_and_offsets`: `indices`. -/
def indexTable (t : Fin S.Q → Access D S.Q) : List ℤ := List.ofFn fun i => ((t i).2.val : ℤ)

/-- Second component: `offsets[d]`. -/
def offsetTable (t : Fin S.Q → Access D S.Q) (d : Fin D) : List ℤ := List.ofFn fun i => (t i).1 d

/-- Membership in `_trivial_index_translations` (`indexing.py:152-163`). -/
def trivialIndex (t : Fin S.Q → Access D S.Q) : Bool := indexTable t = (List.range S.Q).map (fun n : ℕ => (n : ℤ))

/-- Membership in `_trivial_offset_translations` (`indexing.py:152-163`). -/
def trivialOffset (t : Fin S.Q → Access D S.Q) : Bool := ∀ d, offsetTable t d = List.replicate S.Q 0

/-- A proxy access in a boundary rule: `f_dir[shift](idx)` or `f_dir[shift](inv_dir[idx])`; `idx` is an integer
constant (`inl`) or a run-time symbol, numbered by `ℕ` (`inr`). -/
structure Proxy (D Q : ℕ) where
  fdir : FDir
  inv : Bool
  idx : Fin Q ⊕ ℕ
  shift : Vec D

/-- Index expressions of the substituted access (`indexing.py:76-91,127-131`). -/
inductive IdxE (Q : ℕ)
  | lit (i : Fin Q)
  | sym (n : ℕ)
  | arr (name : String) (n : ℕ)

/-- Offset expressions. -/
inductive OffE
  | lit (z : ℤ)
  | arr (name : String) (n : ℕ)

/-- A substituted access: `pdf_field[off](idx).get_shifted(shift)`. -/
structure Subst (D Q : ℕ) where
  idx : IdxE Q
  off : Fin D → OffE
  shift : Vec D

/-- `_required_index_arrays`, `_required_offset_arrays` (`indexing.py:59-60`). -/
structure Req where
  idx : List (FDir × Bool)
  off : List (FDir × Bool)

def FDir.str : FDir → String
  | .out => "out"
  | .inn => "in"

/-- `_index_array_symbol` (`indexing.py:63-67`). -/
def indexName (k : FDir × Bool) : String := "f_" ++ FDir.str k.1 ++ (if k.2 then "_inv" else "") ++ "_dir_idx"

/-- `_coordinate_names[d]` (`indexing.py:54`). -/
def coordName : ℕ → String
  | 0 => "x"
  | 1 => "y"
  | _ => "z"

/-- `_offset_array_symbols` (`indexing.py:69-74`). -/
def offsetName (k : FDir × Bool) (d : ℕ) : String :=
  "f_" ++ FDir.str k.1 ++ (if k.2 then "_inv" else "") ++ "_offsets_" ++ coordName d

/-- `_array_symbols` (`indexing.py:76-91`). -/
def arraySymbols (ix : Indexing S) (k : FDir × Bool) (n : ℕ) (rq : Req) :
    Option (Req × IdxE S.Q × (Fin D → OffE)) := do
  let t ← ix.translated k
  let (rq, i) := if trivialIndex t then (rq, IdxE.sym n) else ({ rq with idx := k :: rq.idx }, IdxE.arr (indexName k) n)
  if trivialOffset t then return (rq, i, fun _ => OffE.lit 0)
  else return ({ rq with off := k :: rq.off }, i, fun d => OffE.arr (offsetName k d) n)

/-- One iteration of the loop of `substitute_proxies` (`indexing.py:110-131`). -/
def substituteOne (ix : Indexing S) (p : Proxy D S.Q) (rq : Req) : Option (Req × Subst D S.Q) :=
  match p.idx with
  | .inl i => do
    let i ← if p.inv then inverseDirIndex S i else some i
    let a := ix.acc p.fdir i
    return (rq, ⟨.lit a.2, fun d => .lit (a.1 d), p.shift⟩)
  | .inr n => do
    let (rq, i, o) ← ix.arraySymbols (p.fdir, p.inv) n rq
    return (rq, ⟨i, o, p.shift⟩)

/-- `substitute_proxies` (`indexing.py:97-132`) for the proxies occurring in the assignments, in any order. -/
def substituteProxies (ix : Indexing S) : List (Proxy D S.Q) → Req → Option (Req × List (Subst D S.Q))
  | [], rq => some (rq, [])
  | p :: ps, rq => do
    let (rq, s) ← ix.substituteOne p rq
    let (rq, ss) ← ix.substituteProxies ps rq
    return (rq, s :: ss)

/-- `create_code_node` (`indexing.py:165-181`): the generated constant arrays. -/
def codeNode (ix : Indexing S) (rq : Req) : Option (List (String × List ℤ)) := do
  let a ← rq.idx.mapM fun k => do return (indexName k, indexTable (← ix.translated k))
  let b ← rq.off.mapM fun k => do
    let t ← ix.translated k
    return (List.finRange D).map fun d : Fin D => (offsetName k d.val, offsetTable t d)
  return a ++ b.flatten

/-- Run-time value of an index expression, given the generated arrays and the values of the run-time symbols. -/
def IdxE.eval {Q : ℕ} (node : List (String × List ℤ)) (rt : ℕ → Fin Q) : IdxE Q → Option ℤ
  | .lit i => some i.val
  | .sym n => some (rt n).val
  | .arr name n => do (← node.lookup name)[(rt n).val]?

/-- Run-time value of an offset expression. -/
def OffE.eval {Q : ℕ} (node : List (String × List ℤ)) (rt : ℕ → Fin Q) : OffE → Option ℤ
  | .lit z => some z
  | .arr name n => do (← node.lookup name)[(rt n).val]?

/-- Run-time value of a substituted access: (offset, index). `get_shifted` adds the shift to the offset. -/
def Subst.eval {Q : ℕ} (node : List (String × List ℤ)) (rt : ℕ → Fin Q) (s : Subst D Q) : Option (Vec D × ℤ) := do
  let i ← s.idx.eval node rt
  let o ← collect fun d => (s.off d).eval node rt
  return (fun d => o d + s.shift d, i)

end Indexing

end Lbm
