import Verif.Spec.Stokes
import Verif.Props.DecayMethods

/-!
# C110: no-slip walls: stability of Stokes flow, and a momentum that never decays
-/

set_option linter.unusedSectionVars false

namespace Lbm
namespace Stokes

open Spec (Domain alternating momentum StokesCollision deviation vel periodicBox)
open Simulation (SetUp Step Pdfs Order stream_sum exists_setUp)
open Decay (image_fluid image_self sum_inv sum_odd evenPart oddPart)
open Poiseuille (lattice dirs lattice_ok7 weightVec_inv populations_eq input_trt withInput)
open Filter Topology

/-! ### The alternating momentum -/

section Alternating
variable {K : Type} [CommRing K] {D : ℕ} {S : Stencil D} {d : Domain D} {inv : Fin S.Q → Fin S.Q} {A : Finset (Vec D)}

/-- sums over all links after streaming -/
theorem sum_links (hv : S.Valid) (hd : d.Closed S.c) (hinv : ∀ i, S.c (inv i) = -S.c i) (hA : ∀ x, x ∈ A ↔ x ∈ d.fluid)
    (φ : Vec D → Fin S.Q → K) (g : Vec D → Fin S.Q → K) (ε : K)
    (hwall : ∀ x i, φ x i = ε * φ x (inv i)) (hlink : ∀ x ∈ d.fluid, ∀ i, φ x i = ε * φ (d.image (x - S.c i)) i) :
    ∑ x ∈ A, ∑ i, φ x i * d.stream S.c (fun _ i f => f (inv i)) g x i = ε * ∑ x ∈ A, ∑ i, φ x i * g x i := by
  have key := stream_sum (W := fun _ i f => f (inv i)) hv hd inv hinv
    (fun _ (v : Vec D × Fin S.Q) => ε * (φ v.1 v.2 * g v.1 v.2)) (fun _ => rfl) (fun _ _ _ => rfl) A hA (fun x i => (x, i))
  simp only [← Finset.mul_sum] at key
  rw [← key, Finset.mul_sum]
  refine Finset.sum_congr rfl fun x hx => ?_
  rw [Finset.mul_sum]
  refine Finset.sum_congr rfl fun i _ => ?_
  have hx' := (hA x).1 hx
  simp only [Domain.stream]
  by_cases hw : d.wall (x - S.c i)
  · simp only [if_pos hw]
    rw [hwall x i]; ring
  · simp only [if_neg hw]
    rw [hlink x hx' i]; ring

theorem alternating_image {b : Fin D} (heven : d.periodic b = true → Even (d.size b)) (y : Vec D) :
    alternating K b (d.image y) = alternating K b y := by
  unfold alternating
  have : Even (d.image y b) ↔ Even (y b) := by
    unfold Domain.image
    by_cases h : d.periodic b = true
    · rw [if_pos h]
      obtain ⟨m, hm⟩ := heven h
      rw [← Int.even_sub]
      have h2 := Int.emod_add_mul_ediv (y b) (d.size b)
      have h3 : ((d.size b : ℕ) : ℤ) = m + m := by rw [hm]; push_cast; ring
      exact ⟨-(m * (y b / d.size b)), by linear_combination h2 - (y b / (d.size b : ℤ)) * h3⟩
    · rw [if_neg h]
  simp only [this]

/-- the momentum with alternating signs changes its sign when populations are streamed -/
theorem stream_alternating (hv : S.Valid) (hd : d.Closed S.c) (hinv : ∀ i, S.c (inv i) = -S.c i) (hA : ∀ x, x ∈ A ↔ x ∈ d.fluid)
    {b : Fin D} (hodd : ∀ i, S.c i b = 0 ∨ Odd (S.c i b)) (heven : d.periodic b = true → Even (d.size b)) (g : Vec D → Fin S.Q → K) :
    ∑ x ∈ A, alternating K b x * momentum S.c b (d.stream S.c (fun _ i f => f (inv i)) g x) =
      -∑ x ∈ A, alternating K b x * momentum S.c b (g x) := by
  have key := sum_links (K := K) hv hd hinv hA (fun x i => alternating K b x * (S.c i b : K)) g (-1)
    (fun x i => by rw [hinv]; push_cast [Pi.neg_apply]; ring)
    (fun x _ i => by
      rw [alternating_image heven]
      rcases hodd i with h | h
      · rw [h]; simp
      · have : alternating K b (x - S.c i) = -alternating K b x := by
          unfold alternating
          have : Even ((x - S.c i) b) ↔ ¬ Even (x b) := by
            rw [Pi.sub_apply, Int.even_sub]
            rw [← Int.not_even_iff_odd] at h
            tauto
          by_cases hx : Even (x b)
          · rw [if_neg (by rw [this]; exact not_not.2 hx), if_pos hx]
          · rw [if_pos (this.2 hx), if_neg hx, neg_neg]
        rw [this]; ring)
  rw [neg_one_mul] at key
  simp only [momentum, Finset.mul_sum, ← mul_assoc]
  exact key

/-- C110. Whatever the collision is, as long as it conserves momentum: in every domain with no-slip walls, periodic or not along axis
`b`, if it is periodic with an even number of cells, the sum of the momenta along `b` with alternating signs changes nothing but its
sign in every time step. -/
theorem C110_alternating (hv : S.Valid) (hd : d.Closed S.c) (hinv : ∀ i, S.c (inv i) = -S.c i)
    (hA : ∀ x, x ∈ A ↔ x ∈ d.fluid) {b : Fin D} (hodd : ∀ i, S.c i b = 0 ∨ Odd (S.c i b))
    (heven : d.periodic b = true → Even (d.size b)) {p : Step S K} (hp : SetUp d (fun _ i f => f (inv i)) p)
    (hC : ∀ x ∈ d.fluid, ∀ f, momentum S.c b (p.collide x f) = momentum S.c b f) (o : Order) (n : ℕ)
    (s : Pdfs D S.Q K × Pdfs D S.Q K) :
    ∃ t, p.steps "pull" o n s = some t ∧ ∑ x ∈ A, alternating K b x * momentum S.c b (fun i => t.1 (x, i)) =
      (-1) ^ n * ∑ x ∈ A, alternating K b x * momentum S.c b (fun i => s.1 (x, i)) := by
  have hst := stream_alternating (K := K) hv hd hinv hA hodd heven
  have hco : ∀ g : Vec D → Fin S.Q → K, ∑ x ∈ A, alternating K b x * momentum S.c b (p.collide x (g x)) =
      ∑ x ∈ A, alternating K b x * momentum S.c b (g x) := fun g =>
    Finset.sum_congr rfl fun x hx => by rw [hC x ((hA x).1 hx)]
  have hcl : S.InvClosed := fun i => ⟨inv i, hinv i⟩
  cases o with
  | collideStream =>
    obtain ⟨t, h1, h2⟩ := Simulation.C105_collide_stream hv hcl hd hp "pull" n s
    refine ⟨t, h1, ?_⟩
    rw [Finset.sum_congr rfl fun x hx => by rw [h2 x ((hA x).1 hx)]]
    clear h1 h2
    induction n with
    | zero => simp
    | succ n ih =>
      simp only [Function.iterate_succ_apply']
      refine (hst _).trans ?_
      rw [hco, ih, pow_succ]; ring
  | streamCollide =>
    obtain ⟨t, h1, h2⟩ := Simulation.C105_stream_collide hv hcl hd hp n s
    refine ⟨t, h1, ?_⟩
    rw [Finset.sum_congr rfl fun x hx => by rw [h2 x ((hA x).1 hx)]]
    clear h1 h2
    induction n with
    | zero => simp
    | succ n ih =>
      simp only [Function.iterate_succ_apply']
      refine (hco _).trans ?_
      rw [hst, ih, pow_succ]; ring

/-- C110. So unless this sum is zero, the simulation never comes to rest, nor to any other steady state: its populations do not
converge. -/
theorem C110_never_steady {S : Stencil D} {inv : Fin S.Q → Fin S.Q} (hv : S.Valid) (hd : d.Closed S.c)
    (hinv : ∀ i, S.c (inv i) = -S.c i)
    (hA : ∀ x, x ∈ A ↔ x ∈ d.fluid) {b : Fin D} (hodd : ∀ i, S.c i b = 0 ∨ Odd (S.c i b))
    (heven : d.periodic b = true → Even (d.size b)) {p : Step S ℝ} (hp : SetUp d (fun _ i f => f (inv i)) p)
    (hC : ∀ x ∈ d.fluid, ∀ f, momentum S.c b (p.collide x f) = momentum S.c b f) (o : Order)
    (s : Pdfs D S.Q ℝ × Pdfs D S.Q ℝ) (hs : ∑ x ∈ A, alternating ℝ b x * momentum S.c b (fun i => s.1 (x, i)) ≠ 0)
    (t : ℕ → Pdfs D S.Q ℝ × Pdfs D S.Q ℝ) (ht : ∀ n, p.steps "pull" o n s = some (t n)) (z : Vec D → Fin S.Q → ℝ) :
    ¬ ∀ x ∈ d.fluid, ∀ i, Tendsto (fun n => (t n).1 (x, i)) atTop (𝓝 (z x i)) := by
  intro h
  have h1 : Tendsto (fun n => ∑ x ∈ A, alternating ℝ b x * momentum S.c b (fun i => (t n).1 (x, i))) atTop
      (𝓝 (∑ x ∈ A, alternating ℝ b x * momentum S.c b (z x))) := by
    refine tendsto_finsetSum _ fun x hx => Tendsto.const_mul _ ?_
    unfold momentum
    exact tendsto_finsetSum _ fun i _ => Tendsto.const_mul _ (h x ((hA x).1 hx) i)
  have h2 : ∀ n, ∑ x ∈ A, alternating ℝ b x * momentum S.c b (fun i => (t n).1 (x, i)) =
      (-1) ^ n * ∑ x ∈ A, alternating ℝ b x * momentum S.c b (fun i => s.1 (x, i)) := by
    intro n
    obtain ⟨t', k1, k2⟩ := C110_alternating (K := ℝ) hv hd hinv hA hodd heven hp hC o n s
    rw [ht n] at k1
    obtain rfl := Option.some.inj k1
    exact k2
  simp only [h2] at h1
  obtain ⟨σ, hσ⟩ : ∃ σ, σ = ∑ x ∈ A, alternating ℝ b x * momentum S.c b (fun i => s.1 (x, i)) := ⟨_, rfl⟩
  rw [← hσ] at h1 hs
  have h3 := h1.comp (tendsto_add_atTop_nat 1)
  have h4 : Tendsto (fun n : ℕ => -((-1 : ℝ) ^ n * σ)) atTop (𝓝 (-∑ x ∈ A, alternating ℝ b x * momentum S.c b (z x))) := h1.neg
  have h5 : ((fun n : ℕ => (-1 : ℝ) ^ n * σ) ∘ fun n => n + 1) = fun n : ℕ => -((-1 : ℝ) ^ n * σ) := by
    funext n; simp only [Function.comp, pow_succ]; ring
  rw [h5] at h3
  have h6 := tendsto_nhds_unique h3 h4
  have h7 : ∑ x ∈ A, alternating ℝ b x * momentum S.c b (z x) = 0 := by linarith
  rw [h7] at h1
  have h8 := h1.abs
  simp only [abs_mul, abs_pow, abs_neg, abs_one, one_pow, one_mul, abs_zero] at h8
  exact hs (abs_eq_zero.1 (tendsto_nhds_unique tendsto_const_nhds h8))

end Alternating

/-! ### Stokes flow -/

section Cell
variable {D Q : ℕ} {c : Fin Q → Vec D} {w : Fin Q → ℝ} {inv : Fin Q → Fin Q} {ωs ωa : ℝ} {C : (Fin Q → ℝ) → Fin Q → ℝ}

theorem collision_eq (h : StokesCollision c w inv ωs ωa C) (f : Fin Q → ℝ) (i : Fin Q) :
    C f i = f i + ωs * (w i * ∑ j, f j - (f i + f (inv i)) / 2) +
      ωa * (3 * w i * ∑ a, (c i a : ℝ) * momentum c a f - (f i - f (inv i)) / 2) := by
  obtain ⟨h1, h2⟩ := h f i
  linear_combination h1 + h2

theorem momentum_sub (a : Fin D) (f f' : Fin Q → ℝ) : momentum c a (f - f') = momentum c a f - momentum c a f' := by
  simp only [momentum, Pi.sub_apply, mul_sub, Finset.sum_sub_distrib]

theorem collision_sub (h : StokesCollision c w inv ωs ωa C) (f f' : Fin Q → ℝ) : C (f - f') = C f - C f' := by
  funext i
  rw [Pi.sub_apply, collision_eq h, collision_eq h, collision_eq h]
  simp only [momentum_sub, Pi.sub_apply, mul_sub, Finset.sum_sub_distrib]
  ring

/-- what the lattice has to satisfy -/
structure Lattice (c : Fin Q → Vec D) (w : Fin Q → ℝ) (inv : Fin Q → Fin Q) : Prop where
  inv2 : ∀ i, inv (inv i) = i
  opp : ∀ i, c (inv i) = -c i
  pos : ∀ i, 0 < w i
  even : ∀ i, w (inv i) = w i
  one : ∑ i, w i = 1
  second : ∀ a b, ∑ i, w i * (c i a : ℝ) * (c i b : ℝ) = if a = b then 1 / 3 else 0

/-- the part that carries the momentum -/
noncomputable def flux (c : Fin Q → Vec D) (w : Fin Q → ℝ) (f : Fin Q → ℝ) (i : Fin Q) : ℝ :=
  3 * w i * ∑ a, (c i a : ℝ) * momentum c a f

theorem momentum_odd (H : Lattice c w inv) (f : Fin Q → ℝ) (a : Fin D) : momentum c a (oddPart inv f) = momentum c a f := by
  have h := sum_inv H.inv2 fun i => (c i a : ℝ) * f (inv i)
  simp only [H.inv2, H.opp, Pi.neg_apply, Int.cast_neg, neg_mul, Finset.sum_neg_distrib] at h
  have e : ∀ i, (c i a : ℝ) * oddPart inv f i = ((c i a : ℝ) * f i - (c i a : ℝ) * f (inv i)) / 2 := fun i => by
    unfold oddPart; ring
  unfold momentum
  simp only [e]
  rw [← Finset.sum_div, Finset.sum_sub_distrib]
  linarith

theorem momentum_flux (H : Lattice c w inv) (f : Fin Q → ℝ) (a : Fin D) : momentum c a (flux c w f) = momentum c a f := by
  have e : ∀ i, (c i a : ℝ) * flux c w f i = ∑ b, 3 * momentum c b f * (w i * (c i a : ℝ) * (c i b : ℝ)) := fun i => by
    unfold flux
    rw [Finset.mul_sum, Finset.mul_sum]
    exact Finset.sum_congr rfl fun b _ => by ring
  rw [momentum]
  simp only [e]
  rw [Finset.sum_comm]
  simp only [← Finset.mul_sum, H.second]
  simp only [mul_ite, mul_zero, Finset.sum_ite_eq, Finset.mem_univ, if_true]
  ring

/-- squares of sums of parts that are orthogonal to each other -/
theorem quad (H : Lattice c w inv) {E P R : Fin Q → ℝ} (hE : ∀ i, E (inv i) = E i) (hE0 : ∑ i, E i = 0) (hP : ∀ i, P (inv i) = -P i)
    (hR : ∀ i, R (inv i) = -R i) (hPR : ∑ i, P i * R i / w i = 0) (α β γ : ℝ) :
    ∑ i, (w i * α + β * E i + P i + γ * R i) ^ 2 / w i =
      α ^ 2 + β ^ 2 * ∑ i, E i ^ 2 / w i + ∑ i, P i ^ 2 / w i + γ ^ 2 * ∑ i, R i ^ 2 / w i := by
  have e : ∀ i, (w i * α + β * E i + P i + γ * R i) ^ 2 / w i =
      w i * α ^ 2 + β ^ 2 * (E i ^ 2 / w i) + P i ^ 2 / w i + γ ^ 2 * (R i ^ 2 / w i) +
      2 * α * β * E i + 2 * α * P i + 2 * α * γ * R i + 2 * β * (E i * P i / w i) + 2 * β * γ * (E i * R i / w i) +
      2 * γ * (P i * R i / w i) := by
    intro i
    have := (H.pos i).ne'
    field_simp
    ring
  have o1 : ∑ i, P i = 0 := sum_odd H.inv2 _ hP
  have o2 : ∑ i, R i = 0 := sum_odd H.inv2 _ hR
  have o3 : ∑ i, E i * P i / w i = 0 := sum_odd H.inv2 _ fun i => by rw [hE, hP, H.even]; ring
  have o4 : ∑ i, E i * R i / w i = 0 := sum_odd H.inv2 _ fun i => by rw [hE, hR, H.even]; ring
  simp only [e, Finset.sum_add_distrib, ← Finset.mul_sum, ← Finset.sum_mul, H.one, o1, o2, o3, o4, hE0, hPR]
  ring

/-- how much a collision dissipates -/
theorem collide_energy (H : Lattice c w inv) (h : StokesCollision c w inv ωs ωa C) (f : Fin Q → ℝ) :
    ∑ i, C f i ^ 2 / w i = ∑ i, f i ^ 2 / w i -
      (ωs * (2 - ωs) * ∑ i, evenPart w inv f i ^ 2 / w i +
        ωa * (2 - ωa) * ∑ i, (oddPart inv f i - flux c w f i) ^ 2 / w i) := by
  have hP : ∀ i, flux c w f (inv i) = -flux c w f i := fun i => by
    unfold flux
    rw [H.even, H.opp]
    simp only [Pi.neg_apply, Int.cast_neg, neg_mul, Finset.sum_neg_distrib]; ring
  have hO : ∀ i, oddPart inv f (inv i) = -oddPart inv f i := fun i => by unfold oddPart; rw [H.inv2]; ring
  have hE : ∀ i, evenPart w inv f (inv i) = evenPart w inv f i := fun i => by unfold evenPart; rw [H.inv2, H.even]; ring
  have hPR : ∑ i, flux c w f i * (oddPart inv f i - flux c w f i) / w i = 0 := by
    have e : ∀ i, flux c w f i * (oddPart inv f i - flux c w f i) / w i =
        ∑ a, 3 * momentum c a f * ((c i a : ℝ) * (oddPart inv f - flux c w f) i) := fun i => by
      have := (H.pos i).ne'
      have e1 : flux c w f i / w i = 3 * ∑ a, (c i a : ℝ) * momentum c a f := by unfold flux; field_simp
      rw [mul_div_right_comm, e1, mul_assoc, Finset.sum_mul, Finset.mul_sum]
      exact Finset.sum_congr rfl fun a _ => by rw [Pi.sub_apply]; ring
    simp only [e]
    rw [Finset.sum_comm]
    refine Finset.sum_eq_zero fun a _ => ?_
    rw [← Finset.mul_sum]
    have := momentum_sub (c := c) a (oddPart inv f) (flux c w f)
    rw [momentum_odd H, momentum_flux H, sub_self] at this
    unfold momentum at this ⊢
    rw [this, mul_zero]
  have q := quad H hE (Decay.sum_evenPart H.inv2 H.one f) hP (R := fun i => oddPart inv f i - flux c w f i)
    (fun i => by rw [hO, hP]; ring) hPR (∑ j, f j)
  have q1 := q (1 - ωs) (1 - ωa)
  have q2 := q 1 1
  have e1 : ∀ i, C f i = w i * ∑ j, f j + (1 - ωs) * evenPart w inv f i + flux c w f i +
      (1 - ωa) * (oddPart inv f i - flux c w f i) := by
    intro i; rw [collision_eq h f i]; unfold evenPart oddPart flux; ring
  have e2 : ∀ i, f i = w i * ∑ j, f j + 1 * evenPart w inv f i + flux c w f i + 1 * (oddPart inv f i - flux c w f i) := by
    intro i; unfold evenPart oddPart; ring
  have s1 : ∑ i, C f i ^ 2 / w i = ∑ i, (w i * ∑ j, f j + (1 - ωs) * evenPart w inv f i + flux c w f i +
      (1 - ωa) * (oddPart inv f i - flux c w f i)) ^ 2 / w i := Finset.sum_congr rfl fun i _ => by rw [← e1 i]
  have s2 : ∑ i, f i ^ 2 / w i = ∑ i, (w i * ∑ j, f j + 1 * evenPart w inv f i + flux c w f i +
      1 * (oddPart inv f i - flux c w f i)) ^ 2 / w i := Finset.sum_congr rfl fun i _ => by rw [← e2 i]
  rw [s1, s2, q1, q2]
  ring

theorem collide_le (H : Lattice c w inv) (h : StokesCollision c w inv ωs ωa C) (hs : 0 ≤ ωs ∧ ωs ≤ 2) (ha : 0 ≤ ωa ∧ ωa ≤ 2)
    (f : Fin Q → ℝ) : ∑ i, C f i ^ 2 / w i ≤ ∑ i, f i ^ 2 / w i := by
  rw [collide_energy H h]
  have h1 := mul_nonneg (mul_nonneg hs.1 (sub_nonneg.2 hs.2)) (Decay.evenPart_nonneg (inv := inv) H.pos f)
  have h2 : 0 ≤ ∑ i, (oddPart inv f i - flux c w f i) ^ 2 / w i :=
    Finset.sum_nonneg fun i _ => div_nonneg (sq_nonneg _) (H.pos i).le
  have h3 := mul_nonneg (mul_nonneg ha.1 (sub_nonneg.2 ha.2)) h2
  linarith

end Cell

section Flow
variable {D : ℕ} {S : Stencil D} {d : Domain D} {w : Fin S.Q → ℝ} {inv : Fin S.Q → Fin S.Q} {ωs ωa : ℝ}
  {C : (Fin S.Q → ℝ) → Fin S.Q → ℝ} {A : Finset (Vec D)}

/-- distance between two states -/
noncomputable def distance (w : Fin S.Q → ℝ) (A : Finset (Vec D)) (g g' : Vec D → Fin S.Q → ℝ) : ℝ :=
  ∑ x ∈ A, ∑ i, (g x i - g' x i) ^ 2 / w i

theorem distance_congr {g g' h h' : Vec D → Fin S.Q → ℝ} (h1 : ∀ x ∈ A, g x = h x) (h2 : ∀ x ∈ A, g' x = h' x) :
    distance w A g g' = distance w A h h' :=
  Finset.sum_congr rfl fun x hx => by rw [h1 x hx, h2 x hx]

theorem stream_distance (hv : S.Valid) (hd : d.Closed S.c) (H : Lattice S.c w inv) (u : Vec D → Fin S.Q → ℝ)
    (hA : ∀ x, x ∈ A ↔ x ∈ d.fluid) (g g' : Vec D → Fin S.Q → ℝ) :
    distance w A (d.stream S.c (fun x i f => f (inv i) + u x i) g) (d.stream S.c (fun x i f => f (inv i) + u x i) g') =
      distance w A g g' := by
  have e : ∀ x i, d.stream S.c (fun x i f => f (inv i) + u x i) g x i - d.stream S.c (fun x i f => f (inv i) + u x i) g' x i =
      d.stream S.c (fun _ i f => f (inv i)) (fun x i => g x i - g' x i) x i := by
    intro x i
    simp only [Domain.stream]
    split
    · ring
    · rfl
  unfold distance
  simp only [e]
  exact stream_sum hv hd inv H.opp (fun i v => v ^ 2 / w i) (fun i => by funext v; rw [H.even]) (fun _ _ _ => rfl) A hA _

/-- C110. Stokes flow, rates between 0 and 2, any geometry, walls that send back what arrives plus what they are given, any force:
the distance between two simulations with the same walls and forces never grows, in both orders. -/
theorem C110_contraction (hv : S.Valid) (hd : d.Closed S.c) (H : Lattice S.c w inv) (h : StokesCollision S.c w inv ωs ωa C)
    (hs : 0 ≤ ωs ∧ ωs ≤ 2) (ha : 0 ≤ ωa ∧ ωa ≤ 2) (u F : Vec D → Fin S.Q → ℝ) (hA : ∀ x, x ∈ A ↔ x ∈ d.fluid) {p : Step S ℝ}
    (hC : ∀ x ∈ d.fluid, ∀ f i, p.collide x f i = C f i + F x i) (hp : SetUp d (fun x i f => f (inv i) + u x i) p) (o : Order)
    (s s' : Pdfs D S.Q ℝ × Pdfs D S.Q ℝ) :
    ∃ t t' : ℕ → Pdfs D S.Q ℝ × Pdfs D S.Q ℝ, (∀ n, p.steps "pull" o n s = some (t n)) ∧
      (∀ n, p.steps "pull" o n s' = some (t' n)) ∧
      Antitone fun n => distance w A (fun x i => (t n).1 (x, i)) fun x i => (t' n).1 (x, i) := by
  have hst := stream_distance hv hd H u hA
  have hco : ∀ g g' : Vec D → Fin S.Q → ℝ, distance w A (fun x => p.collide x (g x)) (fun x => p.collide x (g' x)) ≤
      distance w A g g' := fun g g' =>
    Finset.sum_le_sum fun x hx => by
      have := collide_le H h hs ha (g x - g' x)
      rw [collision_sub h] at this
      simp only [Pi.sub_apply] at this
      have e : ∀ i, p.collide x (g x) i - p.collide x (g' x) i = C (g x) i - C (g' x) i := fun i => by
        rw [hC x ((hA x).1 hx), hC x ((hA x).1 hx)]; ring
      simp only [e]
      exact this
  have hcl : S.InvClosed := fun i => ⟨inv i, H.opp i⟩
  cases o with
  | collideStream =>
    choose t h1 h2 using fun n => Simulation.C105_collide_stream hv hcl hd hp "pull" n s
    choose t' h1' h2' using fun n => Simulation.C105_collide_stream hv hcl hd hp "pull" n s'
    refine ⟨t, t', h1, h1', antitone_nat_of_succ_le fun n => ?_⟩
    rw [distance_congr (fun x hx => h2 n x ((hA x).1 hx)) fun x hx => h2' n x ((hA x).1 hx),
      distance_congr (fun x hx => h2 (n + 1) x ((hA x).1 hx)) fun x hx => h2' (n + 1) x ((hA x).1 hx)]
    simp only [Function.iterate_succ_apply']
    exact (hst _ _).trans_le (hco _ _)
  | streamCollide =>
    choose t h1 h2 using fun n => Simulation.C105_stream_collide hv hcl hd hp n s
    choose t' h1' h2' using fun n => Simulation.C105_stream_collide hv hcl hd hp n s'
    refine ⟨t, t', h1, h1', antitone_nat_of_succ_le fun n => ?_⟩
    rw [distance_congr (fun x hx => h2 n x ((hA x).1 hx)) fun x hx => h2' n x ((hA x).1 hx),
      distance_congr (fun x hx => h2 (n + 1) x ((hA x).1 hx)) fun x hx => h2' (n + 1) x ((hA x).1 hx)]
    simp only [Function.iterate_succ_apply']
    exact (hco _ _).trans_eq (hst _ _)

/-- C110. So no population ever gets farther from that of another simulation than given by the initial states. -/
theorem C110_bounded (hv : S.Valid) (hd : d.Closed S.c) (H : Lattice S.c w inv) (h : StokesCollision S.c w inv ωs ωa C)
    (hs : 0 ≤ ωs ∧ ωs ≤ 2) (ha : 0 ≤ ωa ∧ ωa ≤ 2) (u F : Vec D → Fin S.Q → ℝ) (hA : ∀ x, x ∈ A ↔ x ∈ d.fluid) {p : Step S ℝ}
    (hC : ∀ x ∈ d.fluid, ∀ f i, p.collide x f i = C f i + F x i) (hp : SetUp d (fun x i f => f (inv i) + u x i) p) (o : Order)
    (s s' : Pdfs D S.Q ℝ × Pdfs D S.Q ℝ) (n : ℕ) :
    ∃ t t', p.steps "pull" o n s = some t ∧ p.steps "pull" o n s' = some t' ∧ ∀ x ∈ d.fluid, ∀ i,
      |t.1 (x, i) - t'.1 (x, i)| ≤ √(w i * distance w A (fun x i => s.1 (x, i)) fun x i => s'.1 (x, i)) := by
  obtain ⟨t, t', h1, h1', h3⟩ := C110_contraction hv hd H h hs ha u F hA hC hp o s s'
  refine ⟨t n, t' n, h1 n, h1' n, fun x hx i => ?_⟩
  have e0 : t 0 = s := (Option.some.inj (h1 0)).symm
  have e0' : t' 0 = s' := (Option.some.inj (h1' 0)).symm
  have hle := h3 (Nat.zero_le n)
  simp only [e0, e0'] at hle
  apply Real.abs_le_sqrt
  have a1 : ((t n).1 (x, i) - (t' n).1 (x, i)) ^ 2 / w i ≤ ∑ i, ((t n).1 (x, i) - (t' n).1 (x, i)) ^ 2 / w i :=
    Finset.single_le_sum (f := fun i => ((t n).1 (x, i) - (t' n).1 (x, i)) ^ 2 / w i)
      (fun i _ => div_nonneg (sq_nonneg _) (H.pos i).le) (Finset.mem_univ i)
  have a2 : ∑ i, ((t n).1 (x, i) - (t' n).1 (x, i)) ^ 2 / w i ≤
      distance w A (fun x i => (t n).1 (x, i)) fun x i => (t' n).1 (x, i) :=
    Finset.single_le_sum (f := fun x => ∑ i, ((t n).1 (x, i) - (t' n).1 (x, i)) ^ 2 / w i)
      (fun x _ => Finset.sum_nonneg fun i _ => div_nonneg (sq_nonneg _) (H.pos i).le) ((hA x).2 hx)
  have := (div_le_iff₀ (H.pos i)).1 ((a1.trans a2).trans hle)
  linarith

end Flow

end Stokes
end Lbm
