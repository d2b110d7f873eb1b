/-
Model of `split_pdf_main_assignments_by_symmetry` (`methods/momentbased/momentbasedsimplifications.py:270-320`).
Expressions belong to any type with the operations below: sympy simplifies automatically when an expression is built,
which is covered because the operations need only preserve the value. Symbols are numbered. Python dictionaries are
association lists in order of insertion.
-/
import Verif.StencilCtor
import Mathlib.Algebra.Field.Basic
import Mathlib.Data.Set.Basic

namespace Lbm

namespace SymSplit

/-- what is used of sympy expressions: construction, value in an environment, free symbols -/
structure Alg (E K : Type) [Field K] where
  /-- a symbol as expression -/
  sym : ℕ → E
  /-- `a + b` -/
  add : E → E → E
  /-- `a - b` -/
  sub : E → E → E
  /-- `sp.Rational(1, 2) * a` -/
  half : E → E
  /-- value -/
  eval : (ℕ → K) → E → K
  /-- free symbols -/
  vars : E → Set ℕ
  /-- value of a symbol -/
  eval_sym : ∀ ρ x, eval ρ (sym x) = ρ x
  /-- value of a sum -/
  eval_add : ∀ ρ a b, eval ρ (add a b) = eval ρ a + eval ρ b
  /-- value of a difference -/
  eval_sub : ∀ ρ a b, eval ρ (sub a b) = eval ρ a - eval ρ b
  /-- value of a half -/
  eval_half : ∀ ρ a, eval ρ (half a) = eval ρ a / 2
  /-- the value depends on the free symbols only -/
  eval_congr : ∀ ρ ρ' a, (∀ x ∈ vars a, ρ x = ρ' x) → eval ρ a = eval ρ' a
  /-- free symbols of a symbol -/
  vars_sym : ∀ x, vars (sym x) ⊆ {x}
  /-- free symbols of a sum -/
  vars_add : ∀ a b, vars (add a b) ⊆ vars a ∪ vars b
  /-- free symbols of a difference -/
  vars_sub : ∀ a b, vars (sub a b) ⊆ vars a ∪ vars b
  /-- free symbols of a half -/
  vars_half : ∀ a, vars (half a) ⊆ vars a

/-- an ordered list of assignments `lhs := rhs` -/
abbrev Asms (E : Type) := List (ℕ × E)

/-- `AssignmentCollection`: subexpressions, main assignments, and how many symbols its generator has produced -/
structure AC (E : Type) where
  /-- `subexpressions` -/
  subexpressions : Asms E
  /-- `main_assignments` -/
  main : Asms E
  /-- state of `subexpression_symbol_generator` -/
  ctr : ℕ

variable {E K : Type} [DecidableEq E] [Field K]

/-- `d[k]` -/
def get (d : Asms E) (k : ℕ) : Option E :=
  match d with
  | [] => none
  | (x, e) :: d => if x = k then some e else get d k

/-- `d[k] = v` -/
def set (d : Asms E) (k : ℕ) (v : E) : Asms E :=
  match d with
  | [] => [(k, v)]
  | (x, e) :: d => if x = k then (x, v) :: d else (x, e) :: set d k v

/-- `main_assignments_dict`: the dictionary of a list of assignments -/
def toDict (l : Asms E) : Asms E := l.foldl (fun d p => set d p.1 p.2) []

/-- state of the loop: `asm_dict`, `done`, `subexp_to_symbol_dict`, generator -/
structure St (E : Type) where
  /-- `asm_dict` -/
  asm : Asms E
  /-- `done` -/
  done : List ℕ
  /-- `subexp_to_symbol_dict` -/
  subs : List (E × ℕ)
  /-- symbols produced -/
  ctr : ℕ

/-- `subexp_to_symbol_dict[e]`, a default dictionary (`momentbasedsimplifications.py:293`); `gen` is the sequence of symbols of
the generator -/
def symbolFor (gen : ℕ → ℕ) (s : St E) (e : E) : ℕ × St E :=
  match s.subs.find? (fun p => p.1 == e) with
  | some p => (p.2, s)
  | none => (gen s.ctr, { s with subs := s.subs ++ [(e, gen s.ctr)], ctr := s.ctr + 1 })

variable {D : ℕ}

/-- rewriting of one pair of directions, symbols `f`, `fInv` (`momentbasedsimplifications.py:303-316`) -/
def splitPair (A : Alg E K) (gen : ℕ → ℕ) (s : St E) (f fInv : ℕ) : Except PyErr (St E) :=
  match get s.asm f, get s.asm fInv with
  | some fEq, some fInvEq =>
    let (symS, s1) := symbolFor gen s (A.half (A.add fEq fInvEq))
    let (asymS, s2) := symbolFor gen s1 (A.half (A.sub fEq fInvEq))
    .ok { s2 with asm := set (set s2.asm f (A.add (A.sym symS) (A.sym asymS))) fInv (A.sub (A.sym symS) (A.sym asymS)) }
  | _, _ => .error .keyError

/-- body of the loop over the post-collision symbols (`momentbasedsimplifications.py:295-316`) -/
def splitStep (A : Alg E K) (gen : ℕ → ℕ) (S : Stencil D) (pdf : List ℕ) (s : St E) (i f : ℕ) : Except PyErr (St E) :=
  if i ∈ s.done then .ok s
  else
    if h : i < S.Q then
      if S.c ⟨i, h⟩ = 0 then .ok s
      else
        match S.index (-S.c ⟨i, h⟩) with
        | none => .error .valueError
        | some j =>
          match pdf[j.val]? with
          | none => .error .indexError
          | some fInv => splitPair A gen { s with done := i :: j.val :: s.done } f fInv
    else .error .indexError

/-- the loop, starting with index `i` -/
def splitLoop (A : Alg E K) (gen : ℕ → ℕ) (S : Stencil D) (pdf : List ℕ) : St E → ℕ → List ℕ → Except PyErr (St E)
  | s, _, [] => .ok s
  | s, i, f :: fs =>
    match splitStep A gen S pdf s i f with
    | .ok s' => splitLoop A gen S pdf s' (i + 1) fs
    | .error e => .error e

/-- `split_pdf_main_assignments_by_symmetry` (`momentbasedsimplifications.py:270-320`). The hints are `none` when missing. Result:
the new collection and the collection that was passed, whose list of subexpressions is extended in place
(`momentbasedsimplifications.py:291`, `momentbasedsimplifications.py:317-318`). -/
def split (A : Alg E K) (gen : ℕ → ℕ) (stencil : Option (Stencil D)) (pdf : Option (List ℕ)) (ac : AC E) :
    Except PyErr (AC E × AC E) :=
  match stencil, pdf with
  | some S, some pdf =>
    match splitLoop A gen S pdf { asm := toDict ac.main, done := [], subs := [], ctr := ac.ctr } 0 pdf with
    | .error e => .error e
    | .ok s =>
      let subexpressions := ac.subexpressions ++ s.subs.map fun p => (p.2, p.1)
      .ok ({ subexpressions := subexpressions, main := s.asm, ctr := s.ctr },
        { subexpressions := subexpressions, main := ac.main, ctr := s.ctr })
  | _, _ => .error .valueError

/-- execution of assignments one after the other, as in the generated kernel -/
def exec (A : Alg E K) (l : Asms E) (ρ : ℕ → K) : ℕ → K :=
  l.foldl (fun ρ p => Function.update ρ p.1 (A.eval ρ p.2)) ρ

/-- execution of a collection: subexpressions, then main assignments -/
def AC.run (A : Alg E K) (ac : AC E) (ρ : ℕ → K) : ℕ → K := exec A ac.main (exec A ac.subexpressions ρ)

end SymSplit

end Lbm
