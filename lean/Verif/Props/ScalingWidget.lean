/-
C129: the form for lattice parameters.
-/
import Verif.ScalingWidget
import Mathlib.Tactic.FieldSimp
import Mathlib.Tactic.Linarith
import Mathlib.Tactic.Positivity
import Mathlib.Algebra.Order.Field.Rat

namespace Lbm
namespace ScalingWidget

/-- all numbers are sensible -/
structure Sensible (w : Form) : Prop where
  length : 0 < w.length
  cells : 0 < w.cells
  velocity : 0 < w.velocity
  dx : 0 < w.dx
  viscosity : 0 < w.viscosity
  omega : 0 < w.omega
  omega_le : w.omega ≤ 2
  dt : 0 ≤ w.dt
  lattice : 0 ≤ w.latticeVelocity

/-- The relaxation rate belongs to the viscosity in lattice units, the lattice velocity to the velocity. -/
def Consistent (w : Form) : Prop :=
  w.omega * (6 * (w.viscosity / 1000000 * w.dt / w.dx ^ 2) + 1) = 2 ∧ w.latticeVelocity * w.dx = w.dt * w.velocity

def fD (w : Form) : ℚ := (2 - w.omega) / (6 * w.omega) / (w.viscosity / 1000000) * w.dx ^ 2
def fU (w : Form) : ℚ := w.dt / w.dx * w.velocity
def fO (w : Form) : ℚ := 2 / (6 * (w.viscosity / 1000000 * w.dt / w.dx ^ 2) + 1)
def fT (w : Form) : ℚ := w.latticeVelocity / w.velocity * w.dx

variable {w : Form}

theorem den_pos (h : Sensible w) : 0 < 6 * (w.viscosity / 1000000 * w.dt / w.dx ^ 2) + 1 := by
  have h1 := h.dx; have h2 := h.viscosity; have h3 := h.dt
  positivity

theorem fO_pos (h : Sensible w) : 0 < fO w := div_pos two_pos (den_pos h)

theorem fO_le (h : Sensible w) : fO w ≤ 2 := by
  have h1 := h.dx; have h2 := h.viscosity; have h3 := h.dt
  have : 0 ≤ w.viscosity / 1000000 * w.dt / w.dx ^ 2 := by positivity
  rw [fO, div_le_iff₀ (den_pos h)]
  linarith

theorem fO_clamp (h : Sensible w) : clamp (fO w) = fO w := by
  rw [clamp, min_eq_right (fO_le h), max_eq_right (fO_pos h).le]

theorem fD_nonneg (h : Sensible w) : 0 ≤ fD w := by
  have h1 := h.dx; have h2 := h.viscosity; have h3 := h.omega
  have h4 : 0 ≤ 2 - w.omega := sub_nonneg.mpr h.omega_le
  unfold fD
  positivity

theorem fU_nonneg (h : Sensible w) : 0 ≤ fU w := by
  have h1 := h.dx; have h2 := h.velocity; have h3 := h.dt
  unfold fU
  positivity

theorem fT_nonneg (h : Sensible w) : 0 ≤ fT w := by
  have h1 := h.dx; have h2 := h.velocity; have h3 := h.lattice
  unfold fT
  positivity

theorem Sensible.setDt (h : Sensible w) {v : ℚ} (hv : 0 ≤ v) : Sensible { w with dt := v } :=
  ⟨h.length, h.cells, h.velocity, h.dx, h.viscosity, h.omega, h.omega_le, hv, h.lattice⟩
theorem Sensible.setLattice (h : Sensible w) {v : ℚ} (hv : 0 ≤ v) : Sensible { w with latticeVelocity := v } :=
  ⟨h.length, h.cells, h.velocity, h.dx, h.viscosity, h.omega, h.omega_le, h.dt, hv⟩
theorem Sensible.setOmega (h : Sensible w) {v : ℚ} (hv : 0 < v) (hv2 : v ≤ 2) : Sensible { w with omega := v } :=
  ⟨h.length, h.cells, h.velocity, h.dx, h.viscosity, hv, hv2, h.dt, h.lattice⟩

/-- one call in the three cases -/
def lattStep (n : ℕ) (w : Form) : Option Form :=
  if w.dx = 0 then some w else (pyDiv w.dt w.dx).bind fun q =>
    if w.latticeVelocity = q * w.velocity then some w else updateFree n { w with latticeVelocity := q * w.velocity }
def dtStep (n : ℕ) (w : Form) : Option Form :=
  if w.velocity = 0 then some w else (pyDiv w.latticeVelocity w.velocity).bind fun q =>
    if w.dt = q * w.dx then some w else updateFree n { w with dt := q * w.dx }

theorem lattStep_eq (h : Sensible w) (n : ℕ) :
    lattStep n w = if w.latticeVelocity = fU w then some w else updateFree n { w with latticeVelocity := fU w } := by
  unfold lattStep pyDiv
  rw [if_neg h.dx.ne', if_neg h.dx.ne']
  rfl

theorem dtStep_eq (h : Sensible w) (n : ℕ) : dtStep n w = if w.dt = fT w then some w else updateFree n { w with dt := fT w } := by
  unfold dtStep pyDiv
  rw [if_neg h.velocity.ne', if_neg h.velocity.ne']
  rfl

theorem diffusive_eq (h : Sensible w) (hk : w.kind = .diffusive) (n : ℕ) :
    updateFree (n + 1) w = (if w.dt = fD w then some w else updateFree n { w with dt := fD w }).bind (lattStep n) := by
  have h1 : w.omega ≠ 0 := h.omega.ne'
  have h2 : (6 : ℚ) * w.omega ≠ 0 := mul_ne_zero (by norm_num) h1
  have h3 : w.viscosity / 1000000 ≠ 0 := div_ne_zero h.viscosity.ne' (by norm_num)
  rw [updateFree]
  simp only [hk, viscosityOfRate, pyDiv, if_neg h1, if_neg h2, if_neg h3, Option.bind_some]
  rfl

theorem omega_eq (h : Sensible w) (n : ℕ) :
    (if w.dx = 0 then some w else
      (pyDiv (w.viscosity / 1000000 * w.dt) (w.dx ^ 2)).bind fun nu => (rateOfViscosity nu).bind fun o =>
        if w.omega = clamp o then some w else updateFree n { w with omega := clamp o }) =
      if w.omega = fO w then some w else updateFree n { w with omega := fO w } := by
  have h3 := (den_pos h).ne'
  simp only [rateOfViscosity, pyDiv, if_neg h.dx.ne', if_neg (pow_ne_zero 2 h.dx.ne'), Option.bind_some, if_neg h3]
  rw [← fO, fO_clamp h]

theorem acoustic_eq (h : Sensible w) (hk : w.kind = .acoustic) (n : ℕ) :
    updateFree (n + 1) w = (if w.omega = fO w then some w else updateFree n { w with omega := fO w }).bind (lattStep n) := by
  rw [updateFree, ← omega_eq h]
  simp only [hk]
  rfl

theorem fixed_eq (h : Sensible w) (hk : w.kind = .fixedVelocity) (n : ℕ) :
    updateFree (n + 1) w = (if w.omega = fO w then some w else updateFree n { w with omega := fO w }).bind (dtStep n) := by
  rw [updateFree, ← omega_eq h]
  simp only [hk]
  rfl

theorem d0 (h : Sensible w) (hk : w.kind = .diffusive) (h1 : w.dt = fD w) (h2 : w.latticeVelocity = fU w) (n : ℕ) :
    updateFree (n + 1) w = some w := by
  rw [diffusive_eq h hk, if_pos h1, Option.bind_some, lattStep_eq h, if_pos h2]

theorem d1 (h : Sensible w) (hk : w.kind = .diffusive) (h1 : w.dt = fD w) (n : ℕ) :
    updateFree (n + 2) w = some { w with latticeVelocity := fU w } := by
  rw [diffusive_eq h hk, if_pos h1, Option.bind_some, lattStep_eq h]
  split_ifs with h2
  · rw [← h2]
  · exact d0 (h.setLattice (fU_nonneg h)) hk h1 rfl n

theorem d2 (h : Sensible w) (hk : w.kind = .diffusive) (n : ℕ) :
    updateFree (n + 3) w = some { w with dt := fD w, latticeVelocity := fU { w with dt := fD w } } := by
  by_cases h1 : w.dt = fD w
  · rw [d1 h hk h1, ← h1]
  · have hs := h.setDt (fD_nonneg h)
    rw [diffusive_eq h hk, if_neg h1, d1 hs hk rfl, Option.bind_some, lattStep_eq (hs.setLattice (fU_nonneg hs))]
    exact if_pos rfl

theorem a0 (h : Sensible w) (hk : w.kind = .acoustic) (h1 : w.omega = fO w) (h2 : w.latticeVelocity = fU w) (n : ℕ) :
    updateFree (n + 1) w = some w := by
  rw [acoustic_eq h hk, if_pos h1, Option.bind_some, lattStep_eq h, if_pos h2]

theorem a1 (h : Sensible w) (hk : w.kind = .acoustic) (h1 : w.omega = fO w) (n : ℕ) :
    updateFree (n + 2) w = some { w with latticeVelocity := fU w } := by
  rw [acoustic_eq h hk, if_pos h1, Option.bind_some, lattStep_eq h]
  split_ifs with h2
  · rw [← h2]
  · exact a0 (h.setLattice (fU_nonneg h)) hk h1 rfl n

theorem a2 (h : Sensible w) (hk : w.kind = .acoustic) (n : ℕ) :
    updateFree (n + 3) w = some { w with omega := fO w, latticeVelocity := fU w } := by
  by_cases h1 : w.omega = fO w
  · rw [a1 h hk h1, ← h1]
  · have hs := h.setOmega (fO_pos h) (fO_le h)
    rw [acoustic_eq h hk, if_neg h1, a1 hs hk rfl, Option.bind_some, lattStep_eq (hs.setLattice (fU_nonneg hs))]
    exact if_pos rfl

theorem f0 (h : Sensible w) (hk : w.kind = .fixedVelocity) (h1 : w.omega = fO w) (h2 : w.dt = fT w) (n : ℕ) :
    updateFree (n + 1) w = some w := by
  rw [fixed_eq h hk, if_pos h1, Option.bind_some, dtStep_eq h, if_pos h2]

theorem f1 (h : Sensible w) (hk : w.kind = .fixedVelocity) (h2 : w.dt = fT w) (n : ℕ) :
    updateFree (n + 2) w = some { w with omega := fO w } := by
  by_cases h1 : w.omega = fO w
  · rw [f0 h hk h1 h2, ← h1]
  · have hs := h.setOmega (fO_pos h) (fO_le h)
    rw [fixed_eq h hk, if_neg h1, f0 hs hk rfl h2, Option.bind_some, dtStep_eq hs]
    exact if_pos h2

theorem f2 (h : Sensible w) (hk : w.kind = .fixedVelocity) (h1 : w.omega = fO w) (n : ℕ) :
    updateFree (n + 3) w = some { w with dt := fT w, omega := fO { w with dt := fT w } } := by
  rw [fixed_eq h hk, if_pos h1, Option.bind_some, dtStep_eq h]
  split_ifs with h2
  · rw [← h2, ← h1]
  · exact f1 (h.setDt (fT_nonneg h)) hk rfl n

theorem f3 (h : Sensible w) (hk : w.kind = .fixedVelocity) (n : ℕ) :
    updateFree (n + 4) w = some { w with dt := fT w, omega := fO { w with dt := fT w } } := by
  by_cases h1 : w.omega = fO w
  · exact f2 h hk h1 (n + 1)
  · have hs := h.setOmega (fO_pos h) (fO_le h)
    have hd := h.setDt (fT_nonneg h)
    rw [fixed_eq h hk, if_neg h1, f2 hs hk rfl, Option.bind_some]
    have he : ({ w with dt := fT w, omega := fO { w with dt := fT w } } : Form) =
      { { w with omega := fO w } with dt := fT { w with omega := fO w }, omega := fO { { w with omega := fO w } with dt := fT { w with omega := fO w } } } := rfl
    rw [← he, dtStep_eq (hd.setOmega (fO_pos hd) (fO_le hd))]
    exact if_pos rfl

theorem consistent_dU (h : Sensible w) (h1 : w.omega = fO w ∨ w.dt = fD w) (h2 : w.latticeVelocity = fU w ∨ w.dt = fT w) : Consistent w := by
  have a := h.dx.ne'; have b := h.viscosity.ne'; have c := h.omega.ne'; have d := h.velocity.ne'
  constructor
  · rcases h1 with h1 | h1
    · rw [h1, fO, div_mul_cancel₀ _ (den_pos h).ne']
    · rw [h1, fD]
      field_simp
      ring
  · rcases h2 with h2 | h2
    · rw [h2, fU]; field_simp
    · rw [h2, fT]; field_simp

/-- what the user has fixed -/
def SameInput (w w' : Form) : Prop :=
  w'.kind = w.kind ∧ w'.length = w.length ∧ w'.cells = w.cells ∧ w'.velocity = w.velocity ∧ w'.dx = w.dx ∧ w'.viscosity = w.viscosity ∧
    match w.kind with
    | .diffusive => w'.omega = w.omega
    | .acoustic => w'.dt = w.dt
    | .fixedVelocity => w'.latticeVelocity = w.latticeVelocity

/-- C129. The listeners calling each other come to an end, at most four calls deep. They keep what is fixed in the chosen scaling and make the rest
consistent with it. -/
theorem C129_settles (h : Sensible w) :
    ∃ w', (∀ n, updateFree (n + 4) w = some w') ∧ Sensible w' ∧ Consistent w' ∧ SameInput w w' := by
  cases hk : w.kind with
  | diffusive =>
    have hs := h.setDt (fD_nonneg h)
    have hs' := hs.setLattice (fU_nonneg hs)
    refine ⟨_, fun n => d2 h hk (n + 1), hs', consistent_dU hs' (.inr rfl) (.inl rfl), ?_⟩
    simp [SameInput, hk]
  | acoustic =>
    have hs := h.setOmega (fO_pos h) (fO_le h)
    have hs' := hs.setLattice (fU_nonneg h)
    refine ⟨_, fun n => a2 h hk (n + 1), hs', consistent_dU hs' (.inl rfl) (.inl rfl), ?_⟩
    simp [SameInput, hk]
  | fixedVelocity =>
    have hs := h.setDt (fT_nonneg h)
    have hs' := hs.setOmega (fO_pos hs) (fO_le hs)
    refine ⟨_, fun n => f3 h hk n, hs', consistent_dU hs' (.inl rfl) (.inr rfl), ?_⟩
    simp [SameInput, hk]

/-- C129. In a consistent form nothing is left to do, whichever scaling is chosen: switching the scaling changes no number. -/
theorem C129_switch (h : Sensible w) (hc : Consistent w) (k : Kind) : step w (.kind k) = some { w with kind := k } := by
  have a := h.dx.ne'; have b := h.viscosity.ne'; have c := h.omega.ne'; have d := h.velocity.ne'
  have hs : Sensible { w with kind := k } :=
    ⟨h.length, h.cells, h.velocity, h.dx, h.viscosity, h.omega, h.omega_le, h.dt, h.lattice⟩
  have hO : w.omega = fO w := by rw [fO, eq_div_iff (den_pos h).ne', hc.1]
  have hU : w.latticeVelocity = fU w := by
    rw [fU, div_mul_eq_mul_div, eq_div_iff a, hc.2]
  have hT : w.dt = fT w := by
    rw [fT, div_mul_eq_mul_div, eq_div_iff d, hc.2]
  have hD : w.dt = fD w := by
    have h1 := hc.1
    have h2 : w.omega * 6 * (w.viscosity / 1000000) * w.dt = (2 - w.omega) * w.dx ^ 2 := by
      field_simp at h1 ⊢
      linarith
    rw [fD]
    field_simp
    linarith
  show (if w.kind = k then some w else updateFree 5 _) = _
  split_ifs with hk
  · rw [← hk]
  · cases k with
    | diffusive => exact d0 hs rfl hD hU 4
    | acoustic => exact a0 hs rfl hO hU 4
    | fixedVelocity => exact f0 hs rfl hO hT 4

/-- a form as it should be: the cells match the length as well -/
def Good (w : Form) : Prop := Sensible w ∧ Consistent w ∧ w.dx * w.cells = w.length

/-- sensible input; the velocity is not changed -/
def Allowed : Event → Prop
  | .kind _ => True
  | .velocity _ => False
  | .length v | .cells v | .dx v | .viscosity v | .omega v => 0 < v
  | .dt v | .latticeVelocity v => 0 ≤ v

theorem settle (h : Sensible w) (hg : w.dx * w.cells = w.length) : ∃ w', updateFree depth w = some w' ∧ Good w' := by
  obtain ⟨w', h1, h2, h3, h4⟩ := C129_settles h
  refine ⟨w', h1 1, h2, h3, ?_⟩
  rw [h4.2.1, h4.2.2.1, h4.2.2.2.2.1, hg]

theorem onDx_good (h : Sensible w) : ∃ w', onDx w = some w' ∧ Good w' := by
  unfold onDx pyDiv
  rw [if_neg h.dx.ne', if_neg h.dx.ne', Option.bind_some]
  exact settle ⟨h.length, div_pos h.length h.dx, h.velocity, h.dx, h.viscosity, h.omega, h.omega_le, h.dt, h.lattice⟩
    (mul_div_cancel₀ _ h.dx.ne')

/-- sensible input of any kind -/
def Input : Event → Prop
  | .velocity v => 0 < v
  | e => Allowed e

theorem step_any (h : Sensible w) (hl : w.dx * w.cells = w.length) (e : Event) (ha : Input e) :
    ∃ w', step w e = some w' ∧ (w' = w ∨ (∃ v, 0 < v ∧ e = .velocity v ∧ w' = { w with velocity := v }) ∨ Good w') := by
  have weaken : ∀ (P : Form → Prop) (o : Option Form), (∃ w', o = some w' ∧ Good w') → ∃ w', o = some w' ∧ (w' = w ∨ P w' ∨ Good w') :=
    fun _ o ⟨w', h1, h2⟩ => ⟨w', h1, .inr (.inr h2)⟩
  cases e with
  | kind k =>
    simp only [step]
    split_ifs with h1
    · exact ⟨w, rfl, .inl rfl⟩
    · refine weaken _ _ ?_
      exact settle ⟨h.length, h.cells, h.velocity, h.dx, h.viscosity, h.omega, h.omega_le, h.dt, h.lattice⟩ hl
  | velocity v => exact ⟨_, rfl, .inr (.inl ⟨v, ha, rfl, rfl⟩)⟩
  | length v =>
    simp only [step]
    split_ifs with h1
    · exact ⟨w, rfl, .inl rfl⟩
    · have hv : 0 < v := ha
      unfold onLength pyDiv
      simp only [if_neg h.cells.ne', Option.bind_some]
      have h2 : w.dx ≠ v / w.cells := by
        intro h2
        rw [h2, div_mul_cancel₀ _ h.cells.ne'] at hl
        exact h1 hl.symm
      rw [if_neg h2]
      obtain ⟨w', e1, g1⟩ := onDx_good (w := { w with length := v, dx := v / w.cells })
        ⟨hv, h.cells, h.velocity, div_pos hv h.cells, h.viscosity, h.omega, h.omega_le, h.dt, h.lattice⟩
      rw [e1, Option.bind_some]
      refine weaken _ _ ?_
      exact settle g1.1 g1.2.2
  | cells v =>
    simp only [step]
    split_ifs with h1
    · exact ⟨w, rfl, .inl rfl⟩
    · have hv : 0 < v := ha
      unfold onCells pyDiv
      simp only [if_neg hv.ne', Option.bind_some]
      refine weaken _ _ ?_
      exact settle ⟨h.length, hv, h.velocity, div_pos h.length hv, h.viscosity, h.omega, h.omega_le, h.dt, h.lattice⟩
        (div_mul_cancel₀ _ hv.ne')
  | dx v =>
    simp only [step]
    split_ifs with h1
    · exact ⟨w, rfl, .inl rfl⟩
    · refine weaken _ _ ?_
      exact onDx_good ⟨h.length, h.cells, h.velocity, ha, h.viscosity, h.omega, h.omega_le, h.dt, h.lattice⟩
  | viscosity v =>
    simp only [step]
    split_ifs with h1
    · exact ⟨w, rfl, .inl rfl⟩
    · refine weaken _ _ ?_
      exact settle ⟨h.length, h.cells, h.velocity, h.dx, ha, h.omega, h.omega_le, h.dt, h.lattice⟩ hl
  | omega v =>
    simp only [step]
    split_ifs with h1
    · exact ⟨w, rfl, .inl rfl⟩
    · have hv : 0 < v := ha
      refine weaken _ _ ?_
      exact settle (h.setOmega (lt_max_of_lt_right (lt_min two_pos hv)) (max_le two_pos.le (min_le_left _ _))) hl
  | dt v =>
    simp only [step]
    split_ifs with h1
    · exact ⟨w, rfl, .inl rfl⟩
    · refine weaken _ _ ?_
      exact settle (h.setDt ha) hl
  | latticeVelocity v =>
    simp only [step]
    split_ifs with h1
    · exact ⟨w, rfl, .inl rfl⟩
    · refine weaken _ _ ?_
      exact settle (h.setLattice ha) hl

theorem step_good (hg : Good w) (e : Event) (ha : Allowed e) : ∃ w', step w e = some w' ∧ Good w' := by
  obtain ⟨w', h1, h2⟩ := step_any hg.1 hg.2.2 e (by cases e <;> first | exact ha | exact ha.elim)
  refine ⟨w', h1, ?_⟩
  rcases h2 with rfl | ⟨v, _, rfl, _⟩ | h2
  · exact hg
  · exact ha.elim
  · exact h2

/-- C129. Any sequence of sensible inputs that does not touch the velocity runs without error and leaves the form consistent. -/
theorem C129_inputs (hg : Good w) (es : List Event) (ha : ∀ e ∈ es, Allowed e) : ∃ w', es.foldlM step w = some w' ∧ Good w' := by
  induction es generalizing w with
  | nil => exact ⟨w, rfl, hg⟩
  | cons e es ih =>
    obtain ⟨w', h1, h2⟩ := step_good hg e (ha e (by simp))
    obtain ⟨w'', h3, h4⟩ := ih h2 (fun e' he => ha e' (by simp [he]))
    exact ⟨w'', by rw [List.foldlM_cons, h1]; exact h3, h4⟩

/-- C129. Any sequence of sensible inputs, new velocities among them, runs without error; cell size, length and number of cells always match. -/
theorem C129_runs (h : Sensible w) (hl : w.dx * w.cells = w.length) (es : List Event) (ha : ∀ e ∈ es, Input e) :
    ∃ w', es.foldlM step w = some w' ∧ Sensible w' ∧ w'.dx * w'.cells = w'.length := by
  induction es generalizing w with
  | nil => exact ⟨w, rfl, h, hl⟩
  | cons e es ih =>
    obtain ⟨w', h1, h2⟩ := step_any h hl e (ha e (by simp))
    have h3 : Sensible w' ∧ w'.dx * w'.cells = w'.length := by
      rcases h2 with rfl | ⟨v, hv, _, rfl⟩ | h2
      · exact ⟨h, hl⟩
      · exact ⟨⟨h.length, h.cells, hv, h.dx, h.viscosity, h.omega, h.omega_le, h.dt, h.lattice⟩, hl⟩
      · exact ⟨h2.1, h2.2.2⟩
    obtain ⟨w'', h4, h5⟩ := ih h3.1 h3.2 (fun e' he => ha e' (by simp [he]))
    exact ⟨w'', by rw [List.foldlM_cons, h1]; exact h4, h5⟩

/-- C129. The next input in another field that changes anything makes the form consistent again. -/
theorem C129_repaired (h : Sensible w) (hl : w.dx * w.cells = w.length) (e : Event) (ha : Allowed e) (w' : Form) (hs : step w e = some w')
    (hne : w' ≠ w) : Good w' := by
  obtain ⟨w'', h1, h2⟩ := step_any h hl e (by cases e <;> first | exact ha | exact ha.elim)
  obtain rfl : w' = w'' := Option.some.inj (hs.symm.trans h1)
  rcases h2 with h2 | ⟨v, _, rfl, _⟩ | h2
  · exact absurd h2 hne
  · exact ha.elim
  · exact h2

/-- C129. Of relaxation rate, time step and lattice velocity only the one that is fixed in the chosen scaling takes input. -/
theorem C129_disabled (v : ℚ) : (w.kind ≠ .diffusive → step w (.omega v) = some w) ∧ (w.kind ≠ .acoustic → step w (.dt v) = some w) ∧
    (w.kind ≠ .fixedVelocity → step w (.latticeVelocity v) = some w) :=
  ⟨fun h => if_pos (.inl h), fun h => if_pos (.inl h), fun h => if_pos (.inl h)⟩

/-- C129. A new velocity is not passed on: the form is never consistent after it unless time stands still. -/
theorem C129_velocity_stale (hg : Good w) (hdt : w.dt ≠ 0) (v : ℚ) (hv : v ≠ w.velocity) :
    ∃ w', step w (.velocity v) = some w' ∧ ¬ Consistent w' := by
  refine ⟨_, rfl, fun hc => hv ?_⟩
  have h1 : w.latticeVelocity * w.dx = w.dt * v := hc.2
  rw [hg.2.1.2] at h1
  exact (mul_left_cancel₀ hdt h1).symm

/-- C129. A consistent form agrees with `Scaling`: the same time step and lattice velocity as `diffusive_scaling`. -/
theorem C129_scaling (hg : Good w) (r : ℚ) :
    Scaling.diffusive (⟨w.length, w.velocity, w.viscosity / 1000000, w.cells, r⟩ : Scaling ℚ) w.omega = some (w.dt, w.latticeVelocity) := by
  obtain ⟨h, hc, hl⟩ := hg
  have a := h.dx.ne'; have b := h.viscosity.ne'; have c := h.omega.ne'; have d := h.cells.ne'
  have hdx : w.length / w.cells = w.dx := by rw [← hl, mul_div_cancel_right₀ _ d]
  have h2 : (2 - w.omega) / (6 * w.omega) / (w.viscosity / 1000000) * w.dx ^ 2 = w.dt := by
    have h1 := hc.1
    have h2 : w.omega * 6 * (w.viscosity / 1000000) * w.dt = (2 - w.omega) * w.dx ^ 2 := by
      field_simp at h1 ⊢
      linarith
    field_simp
    linarith
  have h3 : w.dt / w.dx * w.velocity = w.latticeVelocity := by
    rw [div_mul_eq_mul_div, div_eq_iff a, hc.2]
  simp only [Scaling.diffusive, viscosityOfRate, pyDiv, if_neg (mul_ne_zero (by norm_num : (6 : ℚ) ≠ 0) c), if_neg d,
    if_neg (div_ne_zero b (by norm_num : (1000000 : ℚ) ≠ 0)), Option.bind_eq_bind, Option.bind_some, hdx, if_neg a, h2, h3]
  rfl

/-- Concrete case: a good form, and what becomes of it when the time step is fixed, doubled, and then the velocity changed. -/
def sample : Form := ⟨.diffusive, 1, 10, 1, 1 / 10, 1000000, 1, 1 / 600, 1 / 60⟩

example : Good sample ∧ ([.kind .acoustic, .dt (1 / 300)] : List Event).foldlM step sample =
      some ⟨.acoustic, 1, 10, 1, 1 / 10, 1000000, 2 / 3, 1 / 300, 1 / 30⟩ ∧
    ∃ w', step sample (.velocity 2) = some w' ∧ ¬ Consistent w' := by
  have hg : Good sample := by
    refine ⟨?_, ?_, ?_⟩
    · constructor <;> norm_num [sample]
    · constructor <;> norm_num [sample]
    · norm_num [sample]
  exact ⟨hg, by decide +kernel, C129_velocity_stale hg (by norm_num [sample]) 2 (by norm_num [sample])⟩

/-- Concrete case: a new velocity and then a new viscosity. -/
example : ([.velocity 2, .viscosity 500000] : List Event).foldlM step sample =
    some ⟨.diffusive, 1, 10, 2, 1 / 10, 500000, 1, 1 / 300, 1 / 15⟩ := by
  decide +kernel

end ScalingWidget
end Lbm
