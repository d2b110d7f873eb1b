/-
C24: conversions of relaxation rates. C25: physical scalings.
-/
import Verif.Parameters
import Mathlib.Tactic.NormNum

namespace Lbm

section field
variable {K : Type} [Field K] [DecidableEq K]

theorem pyDiv_eq {a b : K} (h : b ≠ 0) : pyDiv a b = some (a / b) := if_neg h

theorem pyDiv_some {a b r : K} : pyDiv a b = some r ↔ b ≠ 0 ∧ r = a / b := by
  unfold pyDiv; split_ifs with h <;> simp [h, eq_comm]

end field

section ordered
variable {K : Type} [Field K] [LinearOrder K] [IsStrictOrderedRing K]

/-- C24: a positive lattice viscosity gives a relaxation rate in (0,2) from which the viscosity is recovered -/
theorem C24_viscosity_rate (nu : K) (h : 0 < nu) :
    ∃ ω, rateOfViscosity nu = some ω ∧ 0 < ω ∧ ω < 2 ∧ viscosityOfRate ω = some nu := by
  have h1 : 0 < 6 * nu + 1 := by linarith
  refine ⟨2 / (6 * nu + 1), pyDiv_eq h1.ne', by positivity, ?_, ?_⟩
  · rw [div_lt_iff₀ h1]; linarith
  · rw [viscosityOfRate, pyDiv_eq (by positivity)]
    congr 1; field_simp; ring

/-- C24: a relaxation rate in (0,2) gives a positive viscosity from which the rate is recovered -/
theorem C24_rate_viscosity (ω : K) (h : 0 < ω) (h2 : ω < 2) :
    ∃ nu, viscosityOfRate ω = some nu ∧ 0 < nu ∧ rateOfViscosity nu = some ω := by
  have h1 : 0 < 2 - ω := by linarith
  refine ⟨(2 - ω) / (6 * ω), pyDiv_eq (by positivity), by positivity, ?_⟩
  have h3 : 0 < 6 * ((2 - ω) / (6 * ω)) + 1 := by positivity
  rw [rateOfViscosity, pyDiv_eq h3.ne']
  congr 1
  field_simp
  ring

/-- C24: larger viscosity, smaller rate -/
theorem C24_rate_antitone (nu nu' ω ω' : K) (h : 0 < nu) (hlt : nu < nu') (hω : rateOfViscosity nu = some ω)
    (hω' : rateOfViscosity nu' = some ω') : ω' < ω := by
  obtain ⟨-, rfl⟩ := pyDiv_some.1 hω
  obtain ⟨-, rfl⟩ := pyDiv_some.1 hω'
  exact div_lt_div_of_pos_left (by norm_num) (by linarith) (by linarith)

/-- C24: the second rate of TRT lies in (0,2) and the two rates realise exactly the given magic number -/
theorem C24_magic_number (ω magic : K) (h : 0 < ω) (h2 : ω < 2) (hm : 0 < magic) :
    ∃ ω', rateOfMagicNumber ω magic = some ω' ∧ 0 < ω' ∧ ω' < 2 ∧ (1 / ω - 1 / 2) * (1 / ω' - 1 / 2) = magic := by
  have h1 : 0 < 2 - ω := by linarith
  have h3 : 0 < 4 * magic * ω + 2 - ω := by have : 0 < magic * ω := by positivity
                                            linarith
  have h4 : 0 < 4 - 2 * ω := by linarith
  refine ⟨(4 - 2 * ω) / (4 * magic * ω + 2 - ω), pyDiv_eq h3.ne', by positivity, ?_, ?_⟩
  · rw [div_lt_iff₀ h3]
    have : 0 < magic * ω := by positivity
    linarith
  · have h5 : ω ≠ 0 := h.ne'
    have h6 := h1.ne'
    have h7 := h3.ne'
    rw [show (4 - 2 * ω) = 2 * (2 - ω) by ring]
    field_simp
    ring

/-- C24: refinement by `s` multiplies the lattice viscosity by `s` and keeps the rate in (0,2) -/
theorem C24_scaling (ω s : K) (h : 0 < ω) (h2 : ω < 2) (hs : 0 < s) :
    ∃ ω', rateScaling ω s = some ω' ∧ 0 < ω' ∧ ω' < 2 ∧
      ∀ nu, viscosityOfRate ω = some nu → viscosityOfRate ω' = some (s * nu) := by
  have h1 : 0 < 1 - ω / 2 := by linarith
  have h3 : 0 < ω / 2 + s * (1 - ω / 2) := by positivity
  refine ⟨ω / (ω / 2 + s * (1 - ω / 2)), pyDiv_eq h3.ne', by positivity, ?_, fun nu hnu => ?_⟩
  · rw [div_lt_iff₀ h3]
    have : 0 < s * (1 - ω / 2) := by positivity
    linarith
  · obtain ⟨-, rfl⟩ := pyDiv_some.1 hnu
    rw [viscosityOfRate, pyDiv_eq (by positivity)]
    have h4 := h3.ne'
    congr 1
    field_simp
    ring

/-- C24: scaling by `s` and then by `t` is scaling by `s * t`; scaling by 1 does nothing -/
theorem C24_scaling_composes (ω s t : K) (h : 0 < ω) (h2 : ω < 2) (hs : 0 < s) (ht : 0 < t) :
    (rateScaling ω s >>= fun ω' => rateScaling ω' t) = rateScaling ω (s * t) ∧ rateScaling ω 1 = some ω := by
  obtain ⟨ω', h1, h3, h4, hv⟩ := C24_scaling ω s h h2 hs
  obtain ⟨ω'', h5, h6, h7, hv'⟩ := C24_scaling ω' t h3 h4 ht
  obtain ⟨ω₂, h8, h9, h10, hv''⟩ := C24_scaling ω (s * t) h h2 (by positivity)
  obtain ⟨nu, hn, hp, -⟩ := C24_rate_viscosity ω h h2
  have e1 := hv' _ (hv _ hn)
  have e2 := hv'' _ hn
  obtain ⟨_, e3, -, e4⟩ := C24_rate_viscosity ω'' h6 h7
  obtain ⟨_, e5, -, e6⟩ := C24_rate_viscosity ω₂ h9 h10
  rw [e1] at e3; cases e3
  rw [e2] at e5; cases e5
  rw [show t * (s * nu) = s * t * nu by ring] at e4
  refine ⟨?_, ?_⟩
  · show (rateScaling ω s).bind _ = _
    rw [h1, Option.bind_some, h5, h8, ← e4, ← e6]
  · rw [rateScaling, pyDiv_eq (by have : ω / 2 + 1 * (1 - ω / 2) = 1 := by ring
                                  rw [this]; exact one_ne_zero)]
    congr 1
    rw [show ω / 2 + 1 * (1 - ω / 2) = 1 by ring, div_one]

/-- concrete values: nu = 1/6 is rate 1; rate 1 and magic number 3/16 give 8/7; one refinement of rate 1 gives 2/3 -/
example : rateOfViscosity (1 / 6 : ℚ) = some 1 ∧ rateOfMagicNumber (1 : ℚ) = some (8 / 7) ∧
    rateScaling (1 : ℚ) 2 = some (2 / 3) := by
  refine ⟨?_, ?_, ?_⟩ <;> norm_num [rateOfViscosity, rateOfMagicNumber, rateScaling, pyDiv]

end ordered

section scaling
variable {K : Type} [Field K] [DecidableEq K]
namespace Scaling

/-- sequences of attribute assignments -/
def run (s : Scaling K) : List (Op K) → Option (Scaling K)
  | [] => some s
  | o :: rest => s.step o >>= fun s' => s'.run rest

theorem update_some {s s' : Scaling K} (h : s.update = some s') :
    s'.length = s.length ∧ s'.velocity = s.velocity ∧ s'.viscosity = s.viscosity ∧ s'.viscosity ≠ 0 ∧
      s'.reynolds = s'.length / s'.viscosity * s'.velocity ∧ s'.cellsPerLength = s.cellsPerLength := by
  simp only [update, reynoldsNumber, Option.map_eq_some_iff] at h
  obtain ⟨r, ⟨x, hx, rfl⟩, rfl⟩ := h
  obtain ⟨h1, rfl⟩ := pyDiv_some.1 hx
  exact ⟨rfl, rfl, rfl, h1, rfl, rfl⟩

/-- C25: after any sequence of attribute assignments the stored Reynolds number is the one of the current parameters -/
theorem C25_reynolds_current (l v nu n : K) (s s' : Scaling K) (ops : List (Op K)) (h0 : new l v nu n = some s)
    (h : s.run ops = some s') : s'.viscosity ≠ 0 ∧ s'.reynolds = s'.length / s'.viscosity * s'.velocity := by
  have key : ∀ (ops : List (Op K)) (s : Scaling K), s.run ops = some s' →
      s.viscosity ≠ 0 ∧ s.reynolds = s.length / s.viscosity * s.velocity →
      s'.viscosity ≠ 0 ∧ s'.reynolds = s'.length / s'.viscosity * s'.velocity := by
    intro ops
    induction ops with
    | nil => intro s h hs; cases h; exact hs
    | cons o rest ih =>
      intro s h hs
      obtain ⟨s1, h1, h2⟩ := Option.bind_eq_some_iff.1 h
      refine ih s1 h2 ?_
      cases o with
      | setCells x => cases h1; exact hs
      | setVelocity x => exact ⟨(update_some h1).2.2.2.1, (update_some h1).2.2.2.2.1⟩
      | setViscosity x => exact ⟨(update_some h1).2.2.2.1, (update_some h1).2.2.2.2.1⟩
      | setLength x => exact ⟨(update_some h1).2.2.2.1, (update_some h1).2.2.2.2.1⟩
  exact key ops s h ⟨(update_some h0).2.2.2.1, (update_some h0).2.2.2.2.1⟩

/-- What the three scalings promise: time step, rate and lattice velocity belong together. The lattice velocity is the
physical one in units of `dx/dt`, the viscosity of the rate is the physical one in units of `dx²/dt`. -/
structure Consistent (s : Scaling K) (ω dt u : K) : Prop where
  rate : ω ≠ 0
  viscosity : (2 - ω) / (6 * ω) * (s.length / s.cellsPerLength) ^ 2 = s.viscosity * dt
  velocity : u * (s.length / s.cellsPerLength) = s.velocity * dt

variable [CharZero K] (s : Scaling K)

theorem six_ne : (6 : K) ≠ 0 := by norm_num
theorem two_ne : (2 : K) ≠ 0 := by norm_num

theorem rate_visc {nu ω : K} (h : rateOfViscosity nu = some ω) : ω ≠ 0 ∧ (2 - ω) / (6 * ω) = nu := by
  obtain ⟨h1, rfl⟩ := pyDiv_some.1 h
  have := two_ne (K := K)
  refine ⟨div_ne_zero this h1, ?_⟩
  have := six_ne (K := K)
  field_simp
  ring

theorem C25_fixed_consistent {u ω dt : K} (h : s.fixedLatticeVelocity u = some (ω, dt)) : s.Consistent ω dt u := by
  simp only [fixedLatticeVelocity, Scaling.dx, Option.bind_eq_bind, Option.bind_eq_some_iff, Option.pure_def,
    Option.some.injEq, Prod.mk.injEq, pyDiv_some] at h
  obtain ⟨dx, ⟨hn, rfl⟩, r, ⟨hv, rfl⟩, nu, ⟨hd, rfl⟩, ω', hω, rfl, rfl⟩ := h
  obtain ⟨hω0, hω⟩ := rate_visc hω
  exact ⟨hω0, by rw [hω, div_mul_cancel₀ _ hd], by rw [← mul_assoc, mul_div_cancel₀ _ hv]⟩

theorem C25_acoustic_consistent {u ω dt : K} (h : s.acoustic dt = some (ω, u)) : s.Consistent ω dt u := by
  simp only [acoustic, Scaling.dx, Option.bind_eq_bind, Option.bind_eq_some_iff, Option.pure_def,
    Option.some.injEq, Prod.mk.injEq, pyDiv_some] at h
  obtain ⟨dx, ⟨hn, rfl⟩, r, ⟨hv, rfl⟩, nu, ⟨hd, rfl⟩, ω', hω, rfl, rfl⟩ := h
  obtain ⟨hω0, hω⟩ := rate_visc hω
  exact ⟨hω0, by rw [hω, div_mul_cancel₀ _ hd], by rw [mul_right_comm, div_mul_cancel₀ _ hv, mul_comm]⟩

theorem C25_diffusive_consistent {u ω dt : K} (h : s.diffusive ω = some (dt, u)) : s.Consistent ω dt u := by
  simp only [diffusive, viscosityOfRate, Option.bind_eq_bind, Option.bind_eq_some_iff, Option.pure_def,
    Option.some.injEq, Prod.mk.injEq, pyDiv_some] at h
  obtain ⟨nu, ⟨h6, rfl⟩, dx, ⟨hn, rfl⟩, r, ⟨hv, rfl⟩, v, ⟨hd, rfl⟩, rfl, rfl⟩ := h
  refine ⟨right_ne_zero_of_mul h6, ?_, ?_⟩
  · rw [← mul_assoc, mul_div_cancel₀ _ hv]
  · rw [mul_right_comm, div_mul_cancel₀ _ hd, mul_comm]

/-- C25: the lattice Reynolds number is the physical one -/
theorem C25_lattice_reynolds {u ω dt : K} (h : s.Consistent ω dt u) (hl : s.length ≠ 0) (hn : s.cellsPerLength ≠ 0)
    (hdt : dt ≠ 0) (hnu : s.viscosity ≠ 0) :
    ∃ nuLattice, viscosityOfRate ω = some nuLattice ∧
      reynoldsNumber s.cellsPerLength u nuLattice = reynoldsNumber s.length s.velocity s.viscosity := by
  have h6 := six_ne (K := K)
  refine ⟨_, pyDiv_eq (mul_ne_zero h6 h.rate), ?_⟩
  have hv := h.viscosity
  have hx : (2 - ω) / (6 * ω) ≠ 0 := by
    intro h0; rw [h0, zero_mul] at hv; exact mul_ne_zero hnu hdt hv.symm
  rw [reynoldsNumber, reynoldsNumber, pyDiv_eq hx, pyDiv_eq hnu]
  simp only [Option.map_some, Option.some.injEq]
  set x := (2 - ω) / (6 * ω)
  have hu := h.velocity
  have e1 : x = s.viscosity * dt * s.cellsPerLength ^ 2 / s.length ^ 2 := by
    rw [eq_div_iff (pow_ne_zero 2 hl), ← hv]; field_simp
  have e2 : u = s.velocity * dt * s.cellsPerLength / s.length := by
    rw [eq_div_iff hl, ← hu]; field_simp
  rw [e1, e2]
  field_simp

/-- the two other parameters are determined by any one of them -/
theorem C25_chained {u ω dt : K} (h : s.Consistent ω dt u) (hl : s.length ≠ 0) (hn : s.cellsPerLength ≠ 0)
    (hv : s.velocity ≠ 0) (hnu : s.viscosity ≠ 0) :
    s.fixedLatticeVelocity u = some (ω, dt) ∧ s.acoustic dt = some (ω, u) ∧ s.diffusive ω = some (dt, u) := by
  have hdx : s.length / s.cellsPerLength ≠ 0 := div_ne_zero hl hn
  have h6 := six_ne (K := K)
  have h2 := two_ne (K := K)
  have hω := h.rate
  have e1 : u / s.velocity * (s.length / s.cellsPerLength) = dt := by
    rw [div_mul_eq_mul_div, h.velocity, mul_comm, mul_div_assoc, div_self hv, mul_one]
  have e2 : s.viscosity * dt / (s.length / s.cellsPerLength) ^ 2 = (2 - ω) / (6 * ω) := by
    rw [← h.viscosity, mul_div_assoc, div_self (pow_ne_zero 2 hdx), mul_one]
  have e3 : rateOfViscosity ((2 - ω) / (6 * ω)) = some ω := by
    have e : 6 * ((2 - ω) / (6 * ω)) + 1 = 2 / ω := by field_simp; ring
    rw [rateOfViscosity, e, pyDiv_eq (div_ne_zero h2 hω)]
    congr 1; field_simp
  have e4 : dt / (s.length / s.cellsPerLength) * s.velocity = u := by
    rw [div_mul_eq_mul_div, mul_comm dt, ← h.velocity, mul_div_assoc, div_self hdx, mul_one]
  have e5 : (2 - ω) / (6 * ω) / s.viscosity * (s.length / s.cellsPerLength) ^ 2 = dt := by
    rw [div_mul_eq_mul_div, h.viscosity, mul_comm, mul_div_assoc, div_self hnu, mul_one]
  have hb : ∀ {α β : Type} (a : α) (f : α → Option β), (some a >>= f) = f a := fun _ _ => rfl
  refine ⟨?_, ?_, ?_⟩
  · simp only [fixedLatticeVelocity, Scaling.dx, pyDiv_eq hn, pyDiv_eq hv, pyDiv_eq (pow_ne_zero 2 hdx), hb, e1, e2, e3]
    rfl
  · simp only [acoustic, Scaling.dx, pyDiv_eq hn, pyDiv_eq (pow_ne_zero 2 hdx), pyDiv_eq hdx, hb, e2, e3, e4]
    rfl
  · simp only [diffusive, viscosityOfRate, pyDiv_eq (mul_ne_zero h6 hω), pyDiv_eq hn, pyDiv_eq hnu, pyDiv_eq hdx, hb,
      e4, e5]
    rfl

/-- C25: chaining the three scalings: starting from a lattice velocity, a rate or a time step, the other two methods give
the same triple. -/
theorem C25_scalings_agree (hl : s.length ≠ 0) (hn : s.cellsPerLength ≠ 0) (hv : s.velocity ≠ 0)
    (hnu : s.viscosity ≠ 0) (ω dt u : K) :
    (s.fixedLatticeVelocity u = some (ω, dt) ↔ s.Consistent ω dt u) ∧
    (s.acoustic dt = some (ω, u) ↔ s.Consistent ω dt u) ∧ (s.diffusive ω = some (dt, u) ↔ s.Consistent ω dt u) :=
  ⟨⟨s.C25_fixed_consistent, fun h => (s.C25_chained h hl hn hv hnu).1⟩,
    ⟨s.C25_acoustic_consistent, fun h => (s.C25_chained h hl hn hv hnu).2.1⟩,
    ⟨s.C25_diffusive_consistent, fun h => (s.C25_chained h hl hn hv hnu).2.2⟩⟩

/-- length 1, velocity 1/2, viscosity 1/100, 100 cells; lattice velocity 1/10 gives dt = 1/500 and rate 10/11 -/
example : ∃ s : Scaling ℚ, new 1 (1 / 2) (1 / 100) 100 = some s ∧
    s.fixedLatticeVelocity (1 / 10) = some (10 / 11, 1 / 500) ∧ s.reynolds = 50 ∧
    (∃ s', s.run [.setCells 10, .setVelocity 2] = some s' ∧ s'.reynolds = 200) := by
  refine ⟨⟨1, 1 / 2, 1 / 100, 100, 50⟩, ?_, ?_, rfl, ⟨1, 2, 1 / 100, 10, 200⟩, ?_, rfl⟩ <;>
    norm_num [new, update, reynoldsNumber, pyDiv, fixedLatticeVelocity, Scaling.dx, rateOfViscosity, run, step]

end Scaling
end scaling
end Lbm
