/-
C85: the Runge-Kutta solver for the temperature: the version with one field is the explicit midpoint rule; the version with three fields
subtracts the last stage and is not even consistent.
-/
import Verif.HeatSolver
import Mathlib.Algebra.BigOperators.Group.List.Lemmas
import Mathlib.Algebra.BigOperators.Ring.List
import Mathlib.Algebra.BigOperators.Ring.Finset
import Mathlib.Algebra.Order.Ring.Rat
import Mathlib.Algebra.CharZero.Defs
import Mathlib.Tactic.Ring
import Mathlib.Tactic.FieldSimp
import Mathlib.Tactic.NormNum
import Mathlib.Tactic.Linarith
import Mathlib.Tactic.FinCases

set_option linter.unusedSectionVars false

namespace Lbm
namespace HeatSolver

variable {D : ℕ} {K : Type} [Field K]

/-! ### Specification -/

/-- The derivative weights are exact on affine functions. -/
structure Exact (P : Params D K) : Prop where
  grad0 : ∀ i, ((P.grad i).map fun p => p.2).sum = 0
  grad1 : ∀ i j, ((P.grad i).map fun p => p.2 * ((p.1 j : ℤ) : K)).sum = if i = j then 1 else 0
  lap0 : (P.lap.map fun p => p.2).sum = 0
  lap1 : ∀ j, (P.lap.map fun p => p.2 * ((p.1 j : ℤ) : K)).sum = 0

/-- Explicit midpoint rule for `t' = f t` with step `h`. -/
def midpoint {X : Type} (f : (X → K) → X → K) (h : K) (t : X → K) : X → K :=
  let y := fun x => t x + h / 2 * f t x
  fun x => t x + h * f y x

/-- Stages of the classical Runge-Kutta method of fourth order. -/
def y2 {X : Type} (f : (X → K) → X → K) (h : K) (t : X → K) : X → K := fun x => t x + h / 2 * f t x
/-- third argument -/
def y3 {X : Type} (f : (X → K) → X → K) (h : K) (t : X → K) : X → K := fun x => t x + h / 2 * f (y2 f h t) x
/-- fourth argument -/
def y4 {X : Type} (f : (X → K) → X → K) (h : K) (t : X → K) : X → K := fun x => t x + h * f (y3 f h t) x

/-- The classical Runge-Kutta method of fourth order. -/
def rk4 {X : Type} (f : (X → K) → X → K) (h : K) (t : X → K) : X → K :=
  fun x => t x + h / 6 * (f t x + 2 * f (y2 f h t) x + 2 * f (y3 f h t) x + f (y4 f h t) x)

/-! ### The kernels -/

theorem run_other (P : Params D K) (s : Stage K) (cells : List (Vec D)) (F : ℕ → Vec D → K) (k : ℕ) (y : Vec D) (h : k ≠ s.out ∨ y ∉ cells) :
    s.run P cells F k y = F k y := by
  induction cells generalizing F with
  | nil => rfl
  | cons x l ih =>
    rw [Stage.run, ih]
    · rcases h with h | h
      · rw [if_neg fun h' => h h'.1]
      · rw [if_neg fun h' => h (by simp [h'.2])]
    · rcases h with h | h
      · exact Or.inl h
      · exact Or.inr fun h' => h (by simp [h'])

/-- What a stage writes does not depend on other cells of the field it writes to. -/
theorem value_congr (P : Params D K) (s : Stage K) (hs : s.src ≠ s.out) (F G : ℕ → Vec D → K) (x : Vec D) (h : ∀ k, k ≠ s.out → F k = G k)
    (hx : F s.out x = G s.out x) : s.value P F x = s.value P G x := by
  unfold Stage.value
  rw [h _ hs]
  congr 2
  refine List.map_congr_left fun p _ => ?_
  by_cases hp : p.1 = s.out
  · rw [hp, hx]
  · rw [h _ hp]

/-- **C85 (no races).**  A kernel that does not take derivatives of the field it writes can visit the cells in any order: each cell gets the value
computed from the old fields. -/
theorem C85_any_order (P : Params D K) (s : Stage K) (hs : s.src ≠ s.out) (cells : List (Vec D)) (hc : cells.Nodup) (F : ℕ → Vec D → K) (x : Vec D)
    (hx : x ∈ cells) : s.run P cells F s.out x = s.value P F x := by
  induction cells generalizing F with
  | nil => simp at hx
  | cons z l ih =>
    rw [List.nodup_cons] at hc
    rw [Stage.run]
    rcases List.mem_cons.1 hx with rfl | hx
    · rw [run_other _ _ _ _ _ _ (Or.inr hc.1), if_pos ⟨rfl, rfl⟩]
    · rw [ih hc.2 _ hx]
      have hne : x ≠ z := fun h => hc.1 (h ▸ hx)
      refine value_congr P s hs _ _ x (fun k hk => ?_) ?_
      · funext y
        rw [if_neg fun h => hk h.1]
      · rw [if_neg fun h => hne h.2]

/-- **C85 (number of fields).**  One field gives two kernels, three or more give four; none or two is an error.  No kernel takes derivatives of the
field it writes. -/
theorem C85_stages (n : ℕ) (h : K) :
    (n = 0 ∨ n = 2 → stages n h = .error .indexError) ∧ (∀ l, stages n h = .ok l → n = 1 ∧ l.length = 2 ∨ 3 ≤ n ∧ l.length = 4) ∧
      (n = 1 ∨ 3 ≤ n → ∃ l, stages n h = .ok l) ∧ ∀ l, stages n h = .ok l → ∀ s ∈ l, s.src ≠ s.out ∧ s.src ≤ n ∧ s.out ≤ n := by
  match n with
  | 0 => simp [stages]
  | 1 => simp [stages]
  | 2 => simp [stages]
  | n + 3 =>
    refine ⟨by omega, ?_, fun _ => ⟨_, rfl⟩, ?_⟩
    · intro l hl
      simp only [stages] at hl
      injection hl with hl
      subst hl
      simp
    · intro l hl
      simp only [stages] at hl
      injection hl with hl
      subst hl
      simp

/-! ### The steps -/

/-- Derivatives only look at cells of the domain: for infinitely many cells the step is defined cell by cell. -/
def Stage.all (P : Params D K) (s : Stage K) (F : ℕ → Vec D → K) : ℕ → Vec D → K := fun k x => if k = s.out then s.value P F x else F k x

/-- One step on all of space. -/
def stepAll (P : Params D K) (l : List (Stage K)) (F : ℕ → Vec D → K) : ℕ → Vec D → K := l.foldl (fun F s => s.all P F) F

/-- The cells a weight list reaches. -/
def Reaches (P : Params D K) (x y : Vec D) : Prop := y = x ∨ (∃ i, ∃ p ∈ P.grad i, y = x + p.1) ∨ ∃ p ∈ P.lap, y = x + p.1

theorem apply_congr (w : Weights D K) (f g : Vec D → K) (x : Vec D) (h : ∀ p ∈ w, f (x + p.1) = g (x + p.1)) : apply w f x = apply w g x := by
  unfold apply
  congr 1
  exact List.map_congr_left fun p hp => by rw [h p hp]

theorem rhs_congr (P : Params D K) (f g : Vec D → K) (x : Vec D) (h : ∀ y, Reaches P x y → f y = g y) : rhs P f x = rhs P g x := by
  unfold rhs
  have h1 : ∀ i, apply (P.grad i) f x = apply (P.grad i) g x := fun i => apply_congr _ _ _ _ fun p hp => h _ (Or.inr (Or.inl ⟨i, p, hp, rfl⟩))
  have h2 : apply P.lap f x = apply P.lap g x := apply_congr _ _ _ _ fun p hp => h _ (Or.inr (Or.inr ⟨p, hp, rfl⟩))
  simp only [h1, h2]

/-- **C85 (halo).**  The kernels over a block compute what the step on all of space computes, on the cells whose neighbourhoods stay inside the
block during all stages. -/
theorem C85_block (P : Params D K) (cells : List (Vec D)) (hc : cells.Nodup) (l : List (Stage K)) (hl : ∀ s ∈ l, s.src ≠ s.out)
    (F G : ℕ → Vec D → K) (inner : ℕ → Set (Vec D)) (h0 : ∀ k, ∀ x ∈ inner 0, F k x = G k x)
    (hin : ∀ m, ∀ x ∈ inner (m + 1), x ∈ cells ∧ ∀ y, Reaches P x y → y ∈ inner m) :
    ∀ k, ∀ x ∈ inner l.length, step P cells l F k x = stepAll P l G k x := by
  induction l generalizing F G inner with
  | nil => exact h0
  | cons s l ih =>
    have hstep : ∀ k, ∀ x ∈ inner 1, s.run P cells F k x = s.all P G k x := by
      intro k x hx
      have hr := hin 0 x hx
      unfold Stage.all
      by_cases hk : k = s.out
      · subst hk
        rw [if_pos rfl, C85_any_order P s (hl s (by simp)) cells hc F x hr.1]
        unfold Stage.value
        rw [rhs_congr P (F s.src) (G s.src) x fun y hy => h0 _ y (hr.2 y hy)]
        congr 2
        exact List.map_congr_left fun p _ => by rw [h0 _ x (hr.2 x (Or.inl rfl))]
      · rw [if_neg hk, run_other _ _ _ _ _ _ (Or.inl hk)]
        exact h0 k x (hr.2 x (Or.inl rfl))
    exact ih (fun s hs => hl s (by simp [hs])) (s.run P cells F) (s.all P G) (fun m => inner (m + 1)) hstep fun m x hx => hin (m + 1) x hx

/-- **C85 (one field).**  Two kernels: the explicit midpoint rule. -/
theorem C85_midpoint (P : Params D K) (F : ℕ → Vec D → K) (l : List (Stage K)) (hl : stages 1 P.stabiliser = .ok l) :
    stepAll P l F 0 = midpoint (rhs P) P.stabiliser (F 0) := by
  simp only [stages] at hl
  injection hl with hl
  subst hl
  have e1 : Stage.all P ⟨1, [(0, 1)], 0, P.stabiliser * (1 / 2)⟩ F 1 = fun x => F 0 x + P.stabiliser / 2 * rhs P (F 0) x := by
    funext x
    simp only [Stage.all, Stage.value, if_true, List.map_cons, List.map_nil, List.sum_cons, List.sum_nil]
    ring
  have e0 : Stage.all P ⟨1, [(0, 1)], 0, P.stabiliser * (1 / 2)⟩ F 0 = F 0 := by
    funext x
    simp [Stage.all]
  funext x
  simp only [stepAll, List.foldl_cons, List.foldl_nil]
  rw [Stage.all, if_pos rfl, Stage.value]
  simp only [List.map_cons, List.map_nil, List.sum_cons, List.sum_nil, e0, e1, midpoint]
  ring

/-- **C85 (three fields).**  Four kernels: the stages of the classical method, but the last one is subtracted. -/
theorem C85_three_fields [CharZero K] (P : Params D K) (F : ℕ → Vec D → K) (n : ℕ) (hn : 3 ≤ n) (l : List (Stage K)) (hl : stages n P.stabiliser = .ok l) (x : Vec D) :
    stepAll P l F 0 x = F 0 x + P.stabiliser / 6 * (rhs P (F 0) x + 2 * rhs P (y2 (rhs P) P.stabiliser (F 0)) x +
      2 * rhs P (y3 (rhs P) P.stabiliser (F 0)) x - rhs P (y4 (rhs P) P.stabiliser (F 0)) x) ∧
    stepAll P l F 0 x = rk4 (rhs P) P.stabiliser (F 0) x - P.stabiliser / 3 * rhs P (y4 (rhs P) P.stabiliser (F 0)) x := by
  have key : stepAll P l F 0 x = F 0 x + P.stabiliser / 6 * (rhs P (F 0) x + 2 * rhs P (y2 (rhs P) P.stabiliser (F 0)) x +
      2 * rhs P (y3 (rhs P) P.stabiliser (F 0)) x - rhs P (y4 (rhs P) P.stabiliser (F 0)) x) := by
    obtain ⟨m, rfl⟩ : ∃ m, n = m + 3 := ⟨n - 3, by omega⟩
    simp only [stages] at hl
    injection hl with hl
    subst hl
    have h2 : (2 : K) ≠ 0 := by norm_num
    have h3 : (3 : K) ≠ 0 := by norm_num
    have h6 : (6 : K) ≠ 0 := by norm_num
    set F1 := Stage.all P ⟨1, [(0, 1)], 0, P.stabiliser * (1 / 2)⟩ F with hF1
    set F2 := Stage.all P ⟨2, [(0, 1)], 1, P.stabiliser * (1 / 2)⟩ F1 with hF2
    set F3 := Stage.all P ⟨3, [(0, 1)], 2, P.stabiliser⟩ F2 with hF3
    have a0 : F1 0 = F 0 := by funext x; simp [hF1, Stage.all]
    have a1 : F1 1 = y2 (rhs P) P.stabiliser (F 0) := by
      funext x
      simp only [hF1, Stage.all, Stage.value, if_true, List.map_cons, List.map_nil, List.sum_cons, List.sum_nil, y2]
      ring
    have b0 : F2 0 = F 0 := by rw [← a0]; funext x; simp [hF2, Stage.all]
    have b1 : F2 1 = y2 (rhs P) P.stabiliser (F 0) := by rw [← a1]; funext x; simp [hF2, Stage.all]
    have b2 : F2 2 = y3 (rhs P) P.stabiliser (F 0) := by
      funext x
      simp only [hF2, Stage.all, Stage.value, if_true, List.map_cons, List.map_nil, List.sum_cons, List.sum_nil, y3, a0, a1]
      ring
    have c0 : F3 0 = F 0 := by rw [← b0]; funext x; simp [hF3, Stage.all]
    have c1 : F3 1 = y2 (rhs P) P.stabiliser (F 0) := by rw [← b1]; funext x; simp [hF3, Stage.all]
    have c2 : F3 2 = y3 (rhs P) P.stabiliser (F 0) := by rw [← b2]; funext x; simp [hF3, Stage.all]
    have c3 : F3 3 = y4 (rhs P) P.stabiliser (F 0) := by
      funext x
      simp only [hF3, Stage.all, Stage.value, if_true, List.map_cons, List.map_nil, List.sum_cons, List.sum_nil, y4, b0, b2]
      ring
    simp only [stepAll, List.foldl_cons, List.foldl_nil]
    rw [← hF1, ← hF2, ← hF3, Stage.all, if_pos rfl, Stage.value]
    simp only [List.map_cons, List.map_nil, List.sum_cons, List.sum_nil, c0, c1, c2, c3]
    have e2 : y2 (rhs P) P.stabiliser (F 0) x = F 0 x + P.stabiliser / 2 * rhs P (F 0) x := rfl
    have e3 : y3 (rhs P) P.stabiliser (F 0) x = F 0 x + P.stabiliser / 2 * rhs P (y2 (rhs P) P.stabiliser (F 0)) x := rfl
    have e4 : y4 (rhs P) P.stabiliser (F 0) x = F 0 x + P.stabiliser * rhs P (y3 (rhs P) P.stabiliser (F 0)) x := rfl
    rw [e2, e3, e4]
    field_simp
    ring
  refine ⟨key, ?_⟩
  rw [key, rk4]
  have h6 : (6 : K) ≠ 0 := by norm_num
  have h3 : (3 : K) ≠ 0 := by norm_num
  field_simp
  ring

/-! ### Consequences -/

theorem apply_affine (w : Weights D K) (a : K) (b : Fin D → K) (f : Vec D → K) (hf : ∀ x, f x = a + ∑ j, b j * ((x j : ℤ) : K)) (x : Vec D) :
    apply w f x = (w.map fun p => p.2).sum * f x + ∑ j, b j * (w.map fun p => p.2 * ((p.1 j : ℤ) : K)).sum := by
  unfold apply
  induction w with
  | nil => simp
  | cons p w ih =>
    simp only [List.map_cons, List.sum_cons, ih]
    have : f (x + p.1) = f x + ∑ j, b j * ((p.1 j : ℤ) : K) := by
      rw [hf, hf, add_assoc, ← Finset.sum_add_distrib]
      congr 1
      refine Finset.sum_congr rfl fun j _ => ?_
      rw [Pi.add_apply, Int.cast_add, mul_add]
    rw [this]
    have h2 : ∑ j, b j * (p.2 * ((p.1 j : ℤ) : K) + (w.map fun p => p.2 * ((p.1 j : ℤ) : K)).sum) =
        p.2 * (∑ j, b j * ((p.1 j : ℤ) : K)) + ∑ j, b j * (w.map fun p => p.2 * ((p.1 j : ℤ) : K)).sum := by
      rw [Finset.mul_sum, ← Finset.sum_add_distrib]
      exact Finset.sum_congr rfl fun j _ => by ring
    rw [h2]
    ring

theorem apply_const (w : Weights D K) (c : K) (x : Vec D) : apply w (fun _ => c) x = (w.map fun p => p.2).sum * c := by
  rw [apply_affine w c (fun _ => 0) _ (by simp) x]
  simp

theorem apply_add (w : Weights D K) (f g : Vec D → K) (x : Vec D) : apply w (fun y => f y + g y) x = apply w f x + apply w g x := by
  unfold apply
  induction w with
  | nil => simp
  | cons p w ih => simp only [List.map_cons, List.sum_cons, ih]; ring

theorem apply_smul (w : Weights D K) (c : K) (f : Vec D → K) (x : Vec D) : apply w (fun y => c * f y) x = c * apply w f x := by
  unfold apply
  induction w with
  | nil => simp
  | cons p w ih => simp only [List.map_cons, List.sum_cons, ih]; ring

/-- **C85 (conduction).**  The gradient of the conduction is the gradient of the phase times the difference of the conductions. -/
theorem C85_conduction (P : Params D K) (hP : Exact P) (x : Vec D) (i : Fin D) :
    conductionGradient P x i = (P.conductionH - P.conductionL) * apply (P.grad i) P.phase x := by
  unfold conductionGradient interpolate
  rw [apply_add (P.grad i) (fun _ => P.conductionL) (fun y => P.phase y * (P.conductionH - P.conductionL)), apply_const, hP.grad0 i, ← apply_smul]
  simp [mul_comm]

/-- The right-hand side on affine temperatures: advection, and conduction where the phase changes. -/
theorem rhs_affine (P : Params D K) (hP : Exact P) (a : K) (b : Fin D → K) (f : Vec D → K) (hf : ∀ x, f x = a + ∑ j, b j * ((x j : ℤ) : K)) (x : Vec D) :
    rhs P f x = -(∑ i, P.velocity x i * b i) +
      1 / (P.density x * (P.heatCapacityL + P.phase x * (P.heatCapacityH - P.heatCapacityL))) * ∑ i, conductionGradient P x i * b i := by
  have hg : ∀ i, apply (P.grad i) f x = b i := by
    intro i
    rw [apply_affine _ a b f hf, hP.grad0 i]
    simp [hP.grad1 i]
  have hl : apply P.lap f x = 0 := by
    rw [apply_affine _ a b f hf, hP.lap0]
    simp [hP.lap1]
  simp only [rhs, hg, hl]
  ring

/-- A constant phase conducts evenly. -/
theorem conductionGradient_const (P : Params D K) (hP : Exact P) (c : K) (hc : P.phase = fun _ => c) (x : Vec D) (i : Fin D) : conductionGradient P x i = 0 := by
  rw [C85_conduction P hP, hc, apply_const, hP.grad0 i]
  simp

theorem rhs_transport (P : Params D K) (hP : Exact P) (c : K) (hc : P.phase = fun _ => c) (v : Fin D → K) (hv : ∀ x, P.velocity x = v)
    (a : K) (b : Fin D → K) (x : Vec D) : rhs P (fun x => a + ∑ j, b j * ((x j : ℤ) : K)) x = -∑ i, v i * b i := by
  rw [rhs_affine P hP a b _ (fun _ => rfl), hv]
  simp [conductionGradient_const P hP c hc]

theorem rhs_transport' (P : Params D K) (hP : Exact P) (c : K) (hc : P.phase = fun _ => c) (v : Fin D → K) (hv : ∀ x, P.velocity x = v)
    (a d : K) (b : Fin D → K) (x : Vec D) : rhs P (fun x => a + ∑ j, b j * ((x j : ℤ) : K) + d) x = -∑ i, v i * b i := by
  have : (fun x : Vec D => a + ∑ j, b j * ((x j : ℤ) : K) + d) = fun x => (a + d) + ∑ j, b j * ((x j : ℤ) : K) := by funext x; ring
  rw [this, rhs_transport P hP c hc v hv]

/-- **C85 (transport).**  A temperature that is affine in space, a constant velocity, a constant phase: the exact solution is transport by `h v`.
The midpoint rule gives it; the version with three fields transports by two thirds of that. -/
theorem C85_transport [CharZero K] (P : Params D K) (hP : Exact P) (c : K) (hc : P.phase = fun _ => c) (v : Fin D → K) (hv : ∀ x, P.velocity x = v)
    (a : K) (b : Fin D → K) (F : ℕ → Vec D → K) (hF : F 0 = fun x => a + ∑ j, b j * ((x j : ℤ) : K)) (x : Vec D) :
    (∀ l, stages 1 P.stabiliser = .ok l → stepAll P l F 0 x = a + ∑ j, b j * (((x j : ℤ) : K) - P.stabiliser * v j)) ∧
    ∀ n, 3 ≤ n → ∀ l, stages n P.stabiliser = .ok l → stepAll P l F 0 x = a + ∑ j, b j * (((x j : ℤ) : K) - 2 / 3 * P.stabiliser * v j) := by
  have hs : ∀ k : K, a + ∑ j, b j * (((x j : ℤ) : K) - k * v j) = a + ∑ j, b j * ((x j : ℤ) : K) - k * ∑ j, v j * b j := by
    intro k
    rw [Finset.mul_sum, add_sub_assoc, ← Finset.sum_sub_distrib]
    congr 1
    exact Finset.sum_congr rfl fun j _ => by ring
  have r0 : ∀ y, rhs P (F 0) y = -∑ i, v i * b i := by intro y; rw [hF]; exact rhs_transport P hP c hc v hv a b y
  constructor
  · intro l hl
    rw [C85_midpoint P F l hl, midpoint, hs]
    simp only [r0]
    rw [hF]
    rw [rhs_transport' P hP c hc v hv]
    ring
  · intro n hn l hl
    have r2 : ∀ y, rhs P (y2 (rhs P) P.stabiliser (F 0)) y = -∑ i, v i * b i := by
      intro y
      have : y2 (rhs P) P.stabiliser (F 0) = fun x => a + ∑ j, b j * ((x j : ℤ) : K) + P.stabiliser / 2 * -∑ i, v i * b i := by
        funext z; simp only [y2, r0]; rw [hF]
      rw [this, rhs_transport' P hP c hc v hv]
    have r3 : ∀ y, rhs P (y3 (rhs P) P.stabiliser (F 0)) y = -∑ i, v i * b i := by
      intro y
      have : y3 (rhs P) P.stabiliser (F 0) = fun x => a + ∑ j, b j * ((x j : ℤ) : K) + P.stabiliser / 2 * -∑ i, v i * b i := by
        funext z; simp only [y3, r2]; rw [hF]
      rw [this, rhs_transport' P hP c hc v hv]
    have r4 : ∀ y, rhs P (y4 (rhs P) P.stabiliser (F 0)) y = -∑ i, v i * b i := by
      intro y
      have : y4 (rhs P) P.stabiliser (F 0) = fun x => a + ∑ j, b j * ((x j : ℤ) : K) + P.stabiliser * -∑ i, v i * b i := by
        funext z; simp only [y4, r3]; rw [hF]
      rw [this, rhs_transport' P hP c hc v hv]
    rw [(C85_three_fields P F n hn l hl x).1, hs, r0, r2, r3, r4, hF]
    have h3 : (3 : K) ≠ 0 := by norm_num
    have h6 : (6 : K) ≠ 0 := by norm_num
    field_simp
    ring

/-- **C85 (steady states).**  A temperature with vanishing right-hand side stays, in both versions. -/
theorem C85_steady [CharZero K] (P : Params D K) (F : ℕ → Vec D → K) (h : ∀ x, rhs P (F 0) x = 0) (n : ℕ) (l : List (Stage K))
    (hl : stages n P.stabiliser = .ok l) : stepAll P l F 0 = F 0 := by
  rcases (C85_stages n P.stabiliser).2.1 l hl with ⟨rfl, -⟩ | ⟨hn, -⟩
  · rw [C85_midpoint P F l hl]
    funext x
    simp only [midpoint, h, mul_zero, add_zero]
  · funext x
    have e2 : y2 (rhs P) P.stabiliser (F 0) = F 0 := by funext y; simp [y2, h]
    have e3 : y3 (rhs P) P.stabiliser (F 0) = F 0 := by funext y; simp [y3, e2, h]
    have e4 : y4 (rhs P) P.stabiliser (F 0) = F 0 := by funext y; simp [y4, e3, h]
    rw [(C85_three_fields P F n hn l hl x).1, e2, e3, e4, h]
    simp

/-- **C85 (growth).**  On an eigenfunction of the right-hand side with eigenvalue `lam` a step multiplies by a polynomial in `z = h lam`; the one of the
version with three fields differs from the exponential in the first power already. -/
theorem C85_growth [CharZero K] (P : Params D K) (F : ℕ → Vec D → K) (lam : K) (h : ∀ c : K, ∀ x, rhs P (fun y => c * F 0 y) x = lam * (c * F 0 x)) (x : Vec D) :
    (∀ l, stages 1 P.stabiliser = .ok l → stepAll P l F 0 x =
      (1 + P.stabiliser * lam + (P.stabiliser * lam) ^ 2 / 2) * F 0 x) ∧
    ∀ n, 3 ≤ n → ∀ l, stages n P.stabiliser = .ok l → stepAll P l F 0 x =
      (1 + 2 / 3 * (P.stabiliser * lam) + (P.stabiliser * lam) ^ 2 / 6 - (P.stabiliser * lam) ^ 4 / 24) * F 0 x := by
  have r0 : ∀ y, rhs P (F 0) y = lam * F 0 y := by intro y; simpa using h 1 y
  have h2' : (2 : K) ≠ 0 := by norm_num
  have e2 : y2 (rhs P) P.stabiliser (F 0) = fun y => (1 + P.stabiliser * lam / 2) * F 0 y := by
    funext y; simp only [y2, r0]; ring
  constructor
  · intro l hl
    rw [C85_midpoint P F l hl]
    show F 0 x + P.stabiliser * rhs P (y2 (rhs P) P.stabiliser (F 0)) x = _
    rw [e2, h]
    field_simp
    ring
  · intro n hn l hl
    have e3 : y3 (rhs P) P.stabiliser (F 0) = fun y => (1 + P.stabiliser * lam / 2 + (P.stabiliser * lam) ^ 2 / 4) * F 0 y := by
      funext y; simp only [y3, e2, h]
      have h4' : (4 : K) ≠ 0 := by norm_num
      field_simp
      ring
    have e4 : y4 (rhs P) P.stabiliser (F 0) = fun y => (1 + P.stabiliser * lam + (P.stabiliser * lam) ^ 2 / 2 + (P.stabiliser * lam) ^ 3 / 4) * F 0 y := by
      funext y; simp only [y4, e3, h]
      have h4' : (4 : K) ≠ 0 := by norm_num
      field_simp
      ring
    rw [(C85_three_fields P F n hn l hl x).1, r0, e2, e3, e4, h, h, h]
    have h4' : (4 : K) ≠ 0 := by norm_num
    have h3' : (3 : K) ≠ 0 := by norm_num
    have h6' : (6 : K) ≠ 0 := by norm_num
    have h24 : (24 : K) ≠ 0 := by norm_num
    field_simp
    ring

/-- **C85 (initial values).**  After the initialisation all stages hold the temperature. -/
theorem C85_initialise (n : ℕ) (F : ℕ → Vec D → K) : initialise n F 0 = F 0 ∧ (∀ k, 1 ≤ k → k ≤ n → initialise n F k = F 0) ∧
    ∀ k, n < k → initialise n F k = F k := by
  refine ⟨by simp [initialise], fun k h1 h2 => by simp [initialise, h1, h2], fun k hk => ?_⟩
  unfold initialise
  rw [if_neg (by omega)]

/-! ### Examples -/

/-- One dimension, central differences, unit velocity. -/
def exParams : Params 1 ℚ where
  grad _ := [(![1], 1 / 2), (![-1], -1 / 2)]
  lap := [(![1], 1), (![0], -2), (![-1], 1)]
  phase _ := 0
  velocity _ _ := 1
  conductionH := 1
  conductionL := 1 / 2
  heatCapacityH := 1
  heatCapacityL := 1
  density _ := 1
  stabiliser := 1

theorem exParams_exact : Exact exParams := by
  refine ⟨fun i => ?_, fun i j => ?_, ?_, fun j => ?_⟩
  · simp [exParams]; norm_num
  · fin_cases i; fin_cases j; simp [exParams]; norm_num
  · simp [exParams]; norm_num
  · fin_cases j; simp [exParams]

/-- Temperature `3 x` moves by one cell with one field, and by two thirds of a cell with three. -/
example : ∃ l l', stages 1 exParams.stabiliser = .ok l ∧ stages 3 exParams.stabiliser = .ok l' ∧
    stepAll exParams l (fun _ x => 0 + ∑ j, 3 * ((x j : ℤ) : ℚ)) 0 ![1] = 0 ∧ stepAll exParams l' (fun _ x => 0 + ∑ j, 3 * ((x j : ℤ) : ℚ)) 0 ![1] = 1 := by
  obtain ⟨h1, h3⟩ := C85_transport exParams exParams_exact 0 rfl (fun _ => 1) (fun _ => rfl) 0 (fun _ => 3) (fun _ x => 0 + ∑ j, 3 * ((x j : ℤ) : ℚ)) rfl ![1]
  refine ⟨_, _, rfl, rfl, ?_, ?_⟩
  · rw [h1 _ rfl]; simp [exParams]
  · rw [h3 3 le_rfl _ rfl]; simp [exParams]; norm_num

end HeatSolver
end Lbm
