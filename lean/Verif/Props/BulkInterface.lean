/-
C119: bulk and interface part of a free energy.
-/
import Verif.BulkInterface
import Mathlib.Algebra.Field.Rat
import Mathlib.Algebra.Order.Ring.Rat
import Mathlib.Tactic.Ring
import Mathlib.Tactic.NormNum

namespace Lbm
namespace BulkInterface

variable {S K : Type} [Field K] [DecidableEq K]

/-- Specification: the value of an expression for values of the symbols and of the gradients of expressions; `none` is a division by
zero. -/
def value (σ : S → K) (g : Expr S K → K) : Expr S K → Option K
  | .num k => some k
  | .sym s => some (σ s)
  | .add a b => do return (← value σ g a) + (← value σ g b)
  | .mul a b => do return (← value σ g a) * (← value σ g b)
  | .neg a => do return -(← value σ g a)
  | .pow a n => do return (← value σ g a) ^ n
  | .inv a => do
    let x ← value σ g a
    if x = 0 then none else return x⁻¹
  | .app f a => do return f (← value σ g a)
  | .diff a => some (g a)

/-- Specification: an expression without gradients. -/
def NoDiff : Expr S K → Prop
  | .num _ => True
  | .sym _ => True
  | .add a b => NoDiff a ∧ NoDiff b
  | .mul a b => NoDiff a ∧ NoDiff b
  | .neg a => NoDiff a
  | .pow a _ => NoDiff a
  | .inv a => NoDiff a
  | .app _ a => NoDiff a
  | .diff _ => False

omit [DecidableEq K] in
/-- C119. The bulk part contains no gradients. -/
theorem C119_bulk_no_gradient (f : Expr S K) : NoDiff (separate f).1 := by
  show NoDiff (subsZero f)
  induction f <;> simp_all [subsZero, NoDiff]

theorem value_noDiff (σ : S → K) (g h : Expr S K → K) (f : Expr S K) (hf : NoDiff f) : value σ g f = value σ h f := by
  induction f <;> simp_all [value, NoDiff]

theorem value_subsZero (σ : S → K) (g : Expr S K → K) (f : Expr S K) : value σ g (subsZero f) = value σ (fun _ => 0) f := by
  induction f <;> simp_all [value, subsZero]

/-- C119. The bulk part is the free energy of a uniform state: its value for any gradients is that of the free energy with all
gradients zero (undefined if that is). -/
theorem C119_bulk (σ : S → K) (g : Expr S K → K) (f : Expr S K) : value σ g (separate f).1 = value σ (fun _ => 0) f :=
  value_subsZero σ g f

/-- C119. Where both are defined the two parts add up to the free energy. -/
theorem C119_sum (σ : S → K) (g : Expr S K → K) (f : Expr S K) (x b : K) (hx : value σ g f = some x)
    (hb : value σ (fun _ => 0) f = some b) :
    value σ g (separate f).1 = some b ∧ value σ g (separate f).2 = some (x - b) := by
  refine ⟨by rw [C119_bulk, hb], ?_⟩
  show value σ g (.add f (.neg (subsZero f))) = _
  simp [value, value_subsZero, hx, hb, sub_eq_add_neg]

/-- C119. The interface part vanishes in a uniform state. -/
theorem C119_interface_uniform (σ : S → K) (f : Expr S K) (b : K) (hb : value σ (fun _ => 0) f = some b) :
    value σ (fun _ => 0) (separate f).2 = some 0 := by
  have := (C119_sum σ (fun _ => 0) f b b hb hb).2
  rwa [sub_self] at this

/-- C119. A free energy that was written as a bulk term without gradients plus a term that vanishes without gradients is separated
into these two again. -/
theorem C119_unique (bulk inter : Expr S K) (hb : NoDiff bulk) (σ : S → K) (hi : value σ (fun _ => 0) inter = some 0)
    (g : Expr S K → K) (x y : K) (hx : value σ g bulk = some x) (hy : value σ g inter = some y) :
    value σ g (separate (.add bulk inter)).1 = some x ∧ value σ g (separate (.add bulk inter)).2 = some y := by
  have h0 : value σ (fun _ => 0) (.add bulk inter) = some x := by
    simp [value, value_noDiff σ (fun _ => 0) g bulk hb, hx, hi]
  have h1 : value σ g (.add bulk inter) = some (x + y) := by simp [value, hx, hy]
  have := C119_sum σ g _ _ _ h1 h0
  rwa [add_sub_cancel_left] at this

/-- C119. A sum of products of gradients with coefficients vanishes without gradients, so that `C119_unique` covers the free energies of
the module. -/
theorem C119_quadratic (σ : S → K) (terms : List (Expr S K × Expr S K × Expr S K)) (hc : ∀ t ∈ terms, ∃ k, value σ (fun _ => 0) t.1 = some k) :
    value σ (fun _ => 0) (terms.foldr (fun t e => .add (.mul t.1 (.mul (.diff t.2.1) (.diff t.2.2))) e) (.num 0)) = some 0 := by
  induction terms with
  | nil => rfl
  | cons t ts ih =>
    obtain ⟨k, hk⟩ := hc t List.mem_cons_self
    rw [List.foldr_cons]
    simp [value, hk, ih fun t ht => hc t (List.mem_cons_of_mem _ ht)]

/-- C119. The parts of a part: separating again changes nothing in the bulk, and leaves no bulk in the interface part. -/
theorem C119_idempotent (σ : S → K) (g : Expr S K → K) (f : Expr S K) (b : K) (hb : value σ (fun _ => 0) f = some b) :
    value σ g (separate (separate f).1).1 = some b ∧ value σ g (separate (separate f).2).1 = some 0 := by
  refine ⟨by rw [C119_bulk, C119_bulk, hb], by rw [C119_bulk, C119_interface_uniform σ f b hb]⟩

/-- C119. With a gradient in a denominator (anisotropy terms) the bulk part is undefined, although the free energy is defined for every
gradient that is not zero. -/
theorem C119_quotient (s t : S) : let f : Expr S ℚ := .add (.sym s) (.mul (.diff (.sym t)) (.inv (.diff (.sym s))))
    (∀ σ g, value σ g (separate f).1 = none ∧ value σ g (separate f).2 = none) ∧
    ∀ σ g, g (.sym s) ≠ 0 → value σ g f = some (σ s + g (.sym t) * (g (.sym s))⁻¹) := by
  refine ⟨fun σ g => ⟨?_, ?_⟩, fun σ g h => ?_⟩
  · simp [separate, subsZero, value]
  · show value σ g (.add _ (.neg (subsZero _))) = none
    simp [subsZero, value]
  · simp [value, h]

/-- Concrete case: `c^2 (1 - c)^2 + k/2 Diff(c) Diff(c)` at `c = 1/2`, `k = 3`, gradient 2: bulk 1/16 and interface 6. -/
example : let bulk : Expr Bool ℚ := .mul (.pow (.sym true) 2) (.pow (.add (.num 1) (.neg (.sym true))) 2)
    let inter : Expr Bool ℚ := .mul (.mul (.sym false) (.inv (.num 2))) (.mul (.diff (.sym true)) (.diff (.sym true)))
    let σ : Bool → ℚ := fun s => if s then 1 / 2 else 3
    NoDiff bulk ∧ value σ (fun _ => 0) inter = some 0 ∧ value σ (fun _ => 2) bulk = some (1 / 16) ∧
      value σ (fun _ => 2) inter = some 6 := by
  refine ⟨by simp [NoDiff], ?_, ?_, ?_⟩ <;> norm_num [value]

end BulkInterface
end Lbm
