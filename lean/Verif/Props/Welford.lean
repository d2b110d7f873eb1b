/-
C26: the running statistics are the statistics of all samples.
-/
import Verif.Welford
import Mathlib.Algebra.BigOperators.Group.List.Basic
import Mathlib.Algebra.BigOperators.Ring.List
import Mathlib.Data.Nat.Cast.Field
import Mathlib.Tactic.FieldSimp
import Mathlib.Tactic.Ring
import Mathlib.Tactic.LinearCombination
import Mathlib.Tactic.NormNum

namespace Lbm
namespace Spec

variable {K : Type} [Field K] {dim : ℕ}

/-- arithmetic mean of component `i` -/
def mean (l : List (Fin dim → K)) (i : Fin dim) : K := (l.map fun x => x i).sum / l.length

/-- sum of products of deviations from the mean -/
def centred2 (l : List (Fin dim → K)) (i j : Fin dim) : K := (l.map fun x => (x i - mean l i) * (x j - mean l j)).sum

/-- sum of triple products of deviations from the mean -/
def centred3 (l : List (Fin dim → K)) (i j k : Fin dim) : K :=
  (l.map fun x => (x i - mean l i) * (x j - mean l j) * (x k - mean l k)).sum

end Spec

open Spec

variable {K : Type} [Field K] {dim : ℕ}

/-- power sums: what is needed of the samples -/
theorem centred2_eq (l : List (Fin dim → K)) (m : Fin dim → K) (i j : Fin dim) :
    (l.map fun x => (x i - m i) * (x j - m j)).sum = (l.map fun x => x i * x j).sum - m j * (l.map fun x => x i).sum -
      m i * (l.map fun x => x j).sum + l.length * (m i * m j) := by
  induction l with
  | nil => simp
  | cons x l ih => simp only [List.map_cons, List.sum_cons, List.length_cons, ih, Nat.cast_add, Nat.cast_one]; ring

theorem centred3_eq (l : List (Fin dim → K)) (m : Fin dim → K) (i j k : Fin dim) :
    (l.map fun x => (x i - m i) * (x j - m j) * (x k - m k)).sum = (l.map fun x => x i * x j * x k).sum
      - m k * (l.map fun x => x i * x j).sum - m j * (l.map fun x => x k * x i).sum - m i * (l.map fun x => x j * x k).sum
      + m j * m k * (l.map fun x => x i).sum + m i * m k * (l.map fun x => x j).sum + m i * m j * (l.map fun x => x k).sum
      - l.length * (m i * m j * m k) := by
  induction l with
  | nil => simp
  | cons x l ih => simp only [List.map_cons, List.sum_cons, List.length_cons, ih, Nat.cast_add, Nat.cast_one]; ring

theorem mean_mul [CharZero K] (l : List (Fin dim → K)) (hl : l ≠ []) (i : Fin dim) :
    (l.map fun x => x i).sum = l.length * mean l i := by
  have : (l.length : K) ≠ 0 := Nat.cast_ne_zero.2 (by simpa using hl)
  rw [mean, mul_div_cancel₀ _ this]

theorem welford_mean_snoc [CharZero K] (l : List (Fin dim → K)) (x : Fin dim → K) (i : Fin dim) (hl : l ≠ []) :
    mean (l ++ [x]) i = mean l i + (x i - mean l i) / ((l.length + 1 : ℕ) : K) := by
  have h : ((l.length + 1 : ℕ) : K) ≠ 0 := Nat.cast_ne_zero.2 (by omega)
  rw [mean, List.map_append, List.sum_append, mean_mul l hl, List.length_append, List.map_singleton, List.sum_singleton,
    List.length_singleton]
  field_simp
  push_cast
  ring

theorem mul_comm_sum (l : List (Fin dim → K)) (i j : Fin dim) :
    (l.map fun x => x i * x j).sum = (l.map fun x => x j * x i).sum := by
  congr 1; exact List.map_congr_left fun x _ => mul_comm _ _

/-- one step of the recursion -/
theorem welford_step [CharZero K] (l : List (Fin dim → K)) (hl : l ≠ []) (x : Fin dim → K) (s : WelfordState K dim)
    (h1 : s.mean = mean l) (h2 : s.squares = centred2 l) (h3 : s.cubes = centred3 l) :
    let s' := welfordStep s ((l.length + 1 : ℕ) : K) x
    s'.mean = mean (l ++ [x]) ∧ s'.squares = centred2 (l ++ [x]) ∧ s'.cubes = centred3 (l ++ [x]) := by
  have hn : ((l.length + 1 : ℕ) : K) ≠ 0 := Nat.cast_ne_zero.2 (by omega)
  have hn' : ((l.length : K) + 1) ≠ 0 := by simpa using hn
  have e1 : ∀ i, (welfordStep s ((l.length + 1 : ℕ) : K) x).mean i = mean (l ++ [x]) i := fun i => by
    rw [welford_mean_snoc l x i hl]; simp only [welfordStep, h1]
  have e2 : ∀ i j, (welfordStep s ((l.length + 1 : ℕ) : K) x).squares i j = centred2 (l ++ [x]) i j := fun i j => by
    rw [centred2, centred2_eq]
    simp only [welfordStep, h1, h2, welford_mean_snoc l x _ hl]
    rw [centred2, centred2_eq]
    simp only [List.map_append, List.sum_append, List.map_singleton, List.sum_singleton, List.length_append,
      List.length_singleton, mean_mul l hl]
    push_cast
    field_simp
    ring
  refine ⟨funext e1, funext fun i => funext fun j => e2 i j, funext fun i => funext fun j => funext fun k => ?_⟩
  rw [centred3, centred3_eq]
  simp only [welfordStep, h1, h3, welford_mean_snoc l x _ hl]
  rw [centred3, centred3_eq]
  simp only [h2, centred2, centred2_eq]
  simp only [List.map_append, List.sum_append, List.map_singleton, List.sum_singleton, List.length_append,
      List.length_singleton, mean_mul l hl]
  rw [mul_comm_sum l k i]
  push_cast
  field_simp
  ring

/-- C26: after any non-empty sequence of samples, with the counter running from 1, the fields hold the mean and the
centred sums over all samples; squares and cubes have to start from 0, the start value of the mean does not matter. -/
theorem C26_welford [CharZero K] (m0 : Fin dim → K) (l : List (Fin dim → K)) (hl : l ≠ []) :
    let s := welfordRun ⟨m0, fun _ _ => 0, fun _ _ _ => 0⟩ 0 l
    s.mean = mean l ∧ s.squares = centred2 l ∧ s.cubes = centred3 l := by
  have key : ∀ (rest l : List (Fin dim → K)) (s : WelfordState K dim), l ≠ [] → s.mean = mean l → s.squares = centred2 l →
      s.cubes = centred3 l → let s' := welfordRun s l.length rest
      s'.mean = mean (l ++ rest) ∧ s'.squares = centred2 (l ++ rest) ∧ s'.cubes = centred3 (l ++ rest) := by
    intro rest
    induction rest with
    | nil => intro l s _ h1 h2 h3; simp only [welfordRun, List.append_nil]; exact ⟨h1, h2, h3⟩
    | cons x rest ih =>
      intro l s hl h1 h2 h3
      obtain ⟨g1, g2, g3⟩ := welford_step l hl x s h1 h2 h3
      have := ih (l ++ [x]) _ (by simp) g1 g2 g3
      rw [List.length_append, List.length_singleton, List.append_assoc, List.singleton_append] at this
      exact this
  cases l with
  | nil => exact absurd rfl hl
  | cons x rest =>
    have := key rest [x] (welfordStep ⟨m0, fun _ _ => 0, fun _ _ _ => 0⟩ ((0 + 1 : ℕ) : K) x) (by simp) ?_ ?_ ?_
    · exact this
    · funext i; simp [welfordStep, mean]
    · funext i j; simp [welfordStep, centred2, mean]
    · funext i j k; simp [welfordStep, centred3, mean]

/-- C26: which arguments are accepted -/
theorem C26_checks (field mean : FieldArg) (squares cubes : Option FieldArg) (dim : ℕ) :
    welfordChecks field mean squares cubes = .ok dim ↔
      field.values = .ok dim ∧ mean ≠ .other ∧ (∀ a ∈ squares, a.values = .ok (dim ^ 2)) ∧
      (∀ a ∈ cubes, a.values = .ok (dim ^ 3)) ∧ (cubes.isSome → squares.isSome) := by
  rcases field with a | a | _ <;> rcases mean with b | b | _ <;> rcases squares with _ | (c | c | _) <;>
    rcases cubes with _ | (d | d | _) <;>
    simp only [welfordChecks, FieldArg.values, bind, Except.bind, pure, Except.pure, throw, throwThe,
      MonadExceptOf.throw] <;> (try split_ifs) <;> (try simp_all) <;> (try (rintro rfl; tauto))

/-- samples 1, 2, 6 of one component: mean 3, sum of squares 14, sum of cubes 18 -/
example : let s := welfordRun (dim := 1) (K := ℚ) ⟨fun _ => 77, fun _ _ => 0, fun _ _ _ => 0⟩ 0 [fun _ => 1, fun _ => 2, fun _ => 6]
    s.mean 0 = 3 ∧ s.squares 0 0 = 14 ∧ s.cubes 0 0 0 = 18 := by
  norm_num [welfordRun, welfordStep]

/-- A restart that keeps the old sums while the counter begins again at 1 is not covered and not correct. -/
example : (welfordRun (dim := 1) (K := ℚ) ⟨fun _ => 0, fun _ _ => 1, fun _ _ _ => 0⟩ 0 [fun _ => 5]).squares 0 0 ≠
    centred2 [fun _ : Fin 1 => (5 : ℚ)] 0 0 := by
  norm_num [welfordRun, welfordStep, centred2, mean]

end Lbm
