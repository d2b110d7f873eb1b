import Verif.Props.Decay
import Verif.Props.Diffusion
import Mathlib.LinearAlgebra.FiniteDimensional.Basic
import Mathlib.LinearAlgebra.FiniteDimensional.Lemmas

/-!
# C109: simulations of diffusion without flow: the distance from uniform states, steady states, convergence
-/

set_option linter.unusedSectionVars false

namespace Lbm
namespace Decay

open Spec (Domain Diffuses diffusionWalls deviation)
open Simulation (SetUp Step Pdfs Order)
open Filter Topology

section Domain
variable {D : ℕ} {S : Stencil D} {d : Domain D} {w : Fin S.Q → ℝ} {inv : Fin S.Q → Fin S.Q} {ωs ωa c : ℝ}
  {given : Vec D → Fin S.Q → Prop} {conc : Vec D → Fin S.Q → ℝ} {C : Vec D → (Fin S.Q → ℝ) → Fin S.Q → ℝ} {A : Finset (Vec D)}

/-- Diffusion in a domain: a stencil with opposite directions and positive weights, and in every cell a collision that diffuses with
rates between the bounds given. -/
structure System (d : Domain D) (S : Stencil D) (w : Fin S.Q → ℝ) (inv : Fin S.Q → Fin S.Q) (ωs ωa : ℝ)
    (C : Vec D → (Fin S.Q → ℝ) → Fin S.Q → ℝ) : Prop where
  valid : S.Valid
  closed : d.Closed S.c
  opp : ∀ i, S.c (inv i) = -S.c i
  pos : ∀ i, 0 < w i
  even : ∀ i, w (inv i) = w i
  one : ∑ i, w i = 1
  collide : ∀ x ∈ d.fluid, Diffuses w inv ωs ωa (C x)

theorem System.inv2 (H : System d S w inv ωs ωa C) (i : Fin S.Q) : inv (inv i) = i := H.valid (by rw [H.opp, H.opp, neg_neg])

theorem System.invClosed (H : System d S w inv ωs ωa C) : S.InvClosed := fun i => ⟨inv i, H.opp i⟩

theorem connected_eq (hd : d.Closed S.c) {ρ : Vec D → ℝ} (h : ∀ x ∈ d.fluid, ∀ y, d.Linked S.c x y → ρ y = ρ x) {x y : Vec D}
    (hx : x ∈ d.fluid) (hxy : d.Connected S.c x y) : y ∈ d.fluid ∧ ρ y = ρ x := by
  induction hxy with
  | refl => exact ⟨hx, rfl⟩
  | tail _ hl ih =>
    obtain ⟨hy, e⟩ := ih
    refine ⟨?_, (h _ hy _ hl).trans e⟩
    obtain ⟨i, hw, rfl⟩ := hl
    exact image_fluid hd hy hw

/-- after one step more, in terms of the other order -/
theorem streamCollide_succ {W : Vec D → Fin S.Q → (Fin S.Q → ℝ) → ℝ} (g : Vec D → Fin S.Q → ℝ) (n : ℕ) :
    (d.streamCollide S.c W C)^[n + 1] g = fun x => C x ((d.collideStream S.c W C)^[n] (d.stream S.c W g) x) := by
  induction n with
  | zero => rfl
  | succ n ih =>
    rw [Function.iterate_succ_apply', ih, Function.iterate_succ_apply']
    rfl

theorem collide_sub (h : Diffuses w inv ωs ωa (C x)) (f f' : Fin S.Q → ℝ) : C x (f - f') = C x f - C x f' := by
  funext i
  simp only [Pi.sub_apply, Diffuses.eq h, Finset.sum_sub_distrib]
  ring

theorem step_sub (H : System d S w inv ωs ωa C) (g g' : Vec D → Fin S.Q → ℝ) : ∀ x ∈ d.fluid,
    d.collideStream S.c (diffusionWalls w inv given fun _ _ => 0) C (g - g') x =
      d.collideStream S.c (diffusionWalls w inv given conc) C g x - d.collideStream S.c (diffusionWalls w inv given conc) C g' x := by
  intro x hx
  funext i
  simp only [Pi.sub_apply, Domain.collideStream, Domain.stream]
  by_cases hw : d.wall (x - S.c i)
  · simp only [if_pos hw, diffusionWalls]
    by_cases hg : given x i
    · simp only [if_pos hg]
      rw [collide_sub (H.collide x hx), Pi.sub_apply]; ring
    · simp only [if_neg hg]
      rw [collide_sub (H.collide x hx), Pi.sub_apply]
  · simp only [if_neg hw]
    rw [collide_sub (H.collide _ (image_fluid H.closed hx hw)), Pi.sub_apply]

/-- C109. Rates between 0 and 2: in both orders, with walls that nothing passes or with the concentration `c`, the distance of the
populations of the flow from the uniform state with concentration `c` never grows; without walls with given concentration, this is so
for every `c`. -/
theorem C109_energy (H : System d S w inv ωs ωa C) (hs : 0 ≤ ωs ∧ ωs ≤ 2) (ha : 0 ≤ ωa ∧ ωa ≤ 2) (c : ℝ)
    (hgiven : ∀ x i, given x i → conc x i = c) (hA : ∀ x, x ∈ A ↔ x ∈ d.fluid) {p : Step S ℝ} (hC : p.collide = C)
    (hp : SetUp d (diffusionWalls w inv given conc) p) (o : Order) (s : Pdfs D S.Q ℝ × Pdfs D S.Q ℝ) :
    ∃ t : ℕ → Pdfs D S.Q ℝ × Pdfs D S.Q ℝ, (∀ n, p.steps "pull" o n s = some (t n)) ∧ t 0 = s ∧
      Antitone fun n => deviation w c A fun x i => (t n).1 (x, i) := by
  subst hC
  have hle := deviation_le (given := given) H.valid H.closed H.opp H.pos H.even H.one hs ha H.collide c hgiven hA
  cases o with
  | collideStream =>
    choose t h1 h2 using fun n => Simulation.C105_collide_stream H.valid H.invClosed H.closed hp "pull" n s
    refine ⟨t, h1, ?_, antitone_nat_of_succ_le fun n => ?_⟩
    · have := h1 0
      exact (Option.some.inj this).symm
    · rw [deviation_congr fun x hx => h2 n x ((hA x).1 hx), deviation_congr fun x hx => h2 (n + 1) x ((hA x).1 hx)]
      simp only [Function.iterate_succ_apply']
      exact (hle _).1
  | streamCollide =>
    choose t h1 h2 using fun n => Simulation.C105_stream_collide H.valid H.invClosed H.closed hp n s
    refine ⟨t, h1, ?_, antitone_nat_of_succ_le fun n => ?_⟩
    · have := h1 0
      exact (Option.some.inj this).symm
    · rw [deviation_congr fun x hx => h2 n x ((hA x).1 hx), deviation_congr fun x hx => h2 (n + 1) x ((hA x).1 hx)]
      simp only [Function.iterate_succ_apply']
      exact (hle _).2

/-- C109. So no population ever leaves bounds given by the initial state. -/
theorem C109_bounded (H : System d S w inv ωs ωa C) (hs : 0 ≤ ωs ∧ ωs ≤ 2) (ha : 0 ≤ ωa ∧ ωa ≤ 2) (c : ℝ)
    (hgiven : ∀ x i, given x i → conc x i = c) (hA : ∀ x, x ∈ A ↔ x ∈ d.fluid) {p : Step S ℝ} (hC : p.collide = C)
    (hp : SetUp d (diffusionWalls w inv given conc) p) (o : Order) (s : Pdfs D S.Q ℝ × Pdfs D S.Q ℝ) (n : ℕ) :
    ∃ t, p.steps "pull" o n s = some t ∧ ∀ x ∈ d.fluid, ∀ i,
      |t.1 (x, i) - w i * c| ≤ √(w i * deviation w c A fun x i => s.1 (x, i)) := by
  obtain ⟨t, h1, h2, h3⟩ := C109_energy H hs ha c hgiven hA hC hp o s
  refine ⟨t n, h1 n, fun x hx i => ?_⟩
  have hle : deviation w c A (fun x i => (t n).1 (x, i)) ≤ deviation w c A fun x i => s.1 (x, i) := by
    have := h3 (Nat.zero_le n)
    simp only [h2] at this
    exact this
  apply Real.abs_le_sqrt
  have a1 : ((t n).1 (x, i) - w i * c) ^ 2 / w i ≤ ∑ i, ((t n).1 (x, i) - w i * c) ^ 2 / w i :=
    Finset.single_le_sum (f := fun i => ((t n).1 (x, i) - w i * c) ^ 2 / w i)
      (fun i _ => div_nonneg (sq_nonneg _) (H.pos i).le) (Finset.mem_univ i)
  have a2 : ∑ i, ((t n).1 (x, i) - w i * c) ^ 2 / w i ≤ deviation w c A fun x i => (t n).1 (x, i) :=
    Finset.single_le_sum (f := fun x => ∑ i, ((t n).1 (x, i) - w i * c) ^ 2 / w i)
      (fun x _ => Finset.sum_nonneg fun i _ => div_nonneg (sq_nonneg _) (H.pos i).le) ((hA x).2 hx)
  have := (div_le_iff₀ (H.pos i)).1 ((a1.trans a2).trans hle)
  linarith

/-- Walls with given concentration that can be reached from every cell of the flow. -/
def Reached (d : Domain D) (S : Stencil D) (given : Vec D → Fin S.Q → Prop) : Prop :=
  ∀ x ∈ d.fluid, ∃ y i, d.Connected S.c x y ∧ d.wall (y - S.c i) ∧ given y i

/-- with walls of concentration zero everything vanishes -/
theorem vanishes (H : System d S w inv ωs ωa C) (hs : 0 < ωs ∧ ωs < 2) (ha : 0 < ωa ∧ ωa < 2) (i₀ : Fin S.Q) (hi₀ : S.c i₀ = 0)
    (hA : ∀ x, x ∈ A ↔ x ∈ d.fluid) (hr : Reached d S given) (g : Vec D → Fin S.Q → ℝ) : ∀ x ∈ d.fluid, ∀ i,
    Tendsto (fun n => (d.collideStream S.c (diffusionWalls w inv given fun _ _ => 0) C)^[n] g x i) atTop (𝓝 0) := by
  refine converges H.valid H.closed H.opp H.pos H.even H.one hs ha H.collide i₀ hi₀ 0 (fun _ _ _ => rfl) hA (fun _ => 0)
    continuous_const (fun _ => rfl) g (fun _ _ => 0) ?_
  intro g' _ ρ h1 h2 h3 x hx
  obtain ⟨y, j, hxy, hwl, hg⟩ := hr x hx
  obtain ⟨hy, e⟩ := connected_eq H.closed h2 hx hxy
  have h4 := h3 y hy j hwl hg
  funext i
  rw [h1 x hx i, ← e, h4, mul_zero]

/-- the change of a state in one step with walls of concentration zero, as a linear map -/
noncomputable def stepMap (H : System d S w inv ωs ωa C) (hA : ∀ x, x ∈ A ↔ x ∈ d.fluid) (given : Vec D → Fin S.Q → Prop) :
    (A → Fin S.Q → ℝ) →ₗ[ℝ] (A → Fin S.Q → ℝ) :=
  have hsub : ∀ y y' : A → Fin S.Q → ℝ, cellStep d A (diffusionWalls w inv given fun _ _ => 0) C (y - y') =
      cellStep d A (diffusionWalls w inv given fun _ _ => 0) C y - cellStep d A (diffusionWalls w inv given fun _ _ => 0) C y' := by
    intro y y'
    funext x
    have e : (ext (y - y') : Vec D → Fin S.Q → ℝ) = ext y - ext y' := by
      funext z i
      simp only [Pi.sub_apply, ext]
      split <;> simp
    unfold cellStep
    rw [e]
    exact step_sub H _ _ x.1 ((hA _).1 x.2)
  have hsmul : ∀ (r : ℝ) (y : A → Fin S.Q → ℝ), cellStep d A (diffusionWalls w inv given fun _ _ => 0) C (r • y) =
      r • cellStep d A (diffusionWalls w inv given fun _ _ => 0) C y := by
    intro r y
    funext x i
    have hx := (hA _).1 x.2
    have e : ∀ z, (ext (r • y) : Vec D → Fin S.Q → ℝ) z = r • ext y z := by
      intro z
      funext i
      simp only [Pi.smul_apply, ext]
      split <;> simp
    have hsm : ∀ z ∈ d.fluid, ∀ f, C z (r • f) = r • C z f := by
      intro z hz f
      funext i
      simp only [Pi.smul_apply, smul_eq_mul, Diffuses.eq (H.collide z hz), ← Finset.mul_sum]
      ring
    simp only [Pi.smul_apply, cellStep, Domain.collideStream, Domain.stream, e]
    by_cases hw : d.wall (x.1 - S.c i)
    · simp only [if_pos hw, diffusionWalls, hsm _ hx, Pi.smul_apply, smul_eq_mul]
      split <;> ring
    · simp only [if_neg hw, hsm _ (image_fluid H.closed hx hw), Pi.smul_apply]
  { toFun := cellStep d A (diffusionWalls w inv given fun _ _ => 0) C
    map_add' := fun y y' => by
      have h1 := hsub (y + y') y'
      rw [add_sub_cancel_right] at h1
      rw [h1]; abel
    map_smul' := hsmul }

theorem stepMap_apply (H : System d S w inv ωs ωa C) (hA : ∀ x, x ∈ A ↔ x ∈ d.fluid) (y : A → Fin S.Q → ℝ) :
    stepMap H hA given y = cellStep d A (diffusionWalls w inv given fun _ _ => 0) C y := rfl

/-- C109. Whatever the concentrations of the walls are, if from every cell of the flow one gets to a wall with given concentration,
there is exactly one steady state. -/
theorem C109_steady (H : System d S w inv ωs ωa C) (hs : 0 < ωs ∧ ωs < 2) (ha : 0 < ωa ∧ ωa < 2) (i₀ : Fin S.Q) (hi₀ : S.c i₀ = 0)
    (hA : ∀ x, x ∈ A ↔ x ∈ d.fluid) (hr : Reached d S given) (conc : Vec D → Fin S.Q → ℝ) :
    ∃ g : Vec D → Fin S.Q → ℝ, (∀ x ∈ d.fluid, d.collideStream S.c (diffusionWalls w inv given conc) C g x = g x) ∧
      ∀ g', (∀ x ∈ d.fluid, d.collideStream S.c (diffusionWalls w inv given conc) C g' x = g' x) → ∀ x ∈ d.fluid, g' x = g x := by
  -- states that the walls with concentration zero do not change
  have hfix : ∀ g : Vec D → Fin S.Q → ℝ,
      (∀ x ∈ d.fluid, d.collideStream S.c (diffusionWalls w inv given fun _ _ => 0) C g x = g x) → ∀ x ∈ d.fluid, g x = 0 := by
    intro g hg x hx
    have it : ∀ n, ∀ x ∈ d.fluid, (d.collideStream S.c (diffusionWalls w inv given fun _ _ => 0) C)^[n] g x = g x := by
      intro n
      induction n with
      | zero => intro x _; rfl
      | succ n ih =>
        intro x hx
        rw [Function.iterate_succ_apply', collideStream_congr H.closed ih x hx, hg x hx]
    funext i
    have := vanishes H hs ha i₀ hi₀ hA hr g x hx i
    simp only [it _ x hx] at this
    exact tendsto_nhds_unique tendsto_const_nhds this
  have hinj : Function.Injective ((LinearMap.id : (A → Fin S.Q → ℝ) →ₗ[ℝ] (A → Fin S.Q → ℝ)) - stepMap H hA given) := by
    rw [← LinearMap.ker_eq_bot, LinearMap.ker_eq_bot']
    intro y hy
    have h1 : stepMap H hA given y = y := by
      rw [LinearMap.sub_apply, LinearMap.id_apply, sub_eq_zero] at hy
      exact hy.symm
    funext x
    have := hfix (ext y) (fun z hz => by
      have := congrFun h1 ⟨z, (hA z).2 hz⟩
      rw [ext_mem y ⟨z, (hA z).2 hz⟩]
      exact this) x.1 ((hA _).1 x.2)
    rw [ext_mem] at this
    exact this
  obtain ⟨y, hy⟩ := LinearMap.injective_iff_surjective.1 hinj (cellStep d A (diffusionWalls w inv given conc) C 0)
  have hext0 : (ext (0 : A → Fin S.Q → ℝ) : Vec D → Fin S.Q → ℝ) = 0 := by
    funext x i
    unfold ext
    split <;> rfl
  have hfixed : ∀ x ∈ d.fluid, d.collideStream S.c (diffusionWalls w inv given conc) C (ext y) x = ext y x := by
    intro x hx
    have h1 := congrFun hy ⟨x, (hA x).2 hx⟩
    have h2 := step_sub (given := given) (conc := conc) H (ext y) 0 x hx
    rw [LinearMap.sub_apply, LinearMap.id_apply, stepMap_apply, Pi.sub_apply] at h1
    unfold cellStep at h1
    rw [hext0] at h1
    rw [sub_zero] at h2
    simp only at h1
    rw [h2] at h1
    rw [ext_mem y ⟨x, (hA x).2 hx⟩]
    have h3 : y ⟨x, (hA x).2 hx⟩ = d.collideStream S.c (diffusionWalls w inv given conc) C (ext y) x := by
      rw [sub_eq_iff_eq_add] at h1
      rw [h1]; abel
    exact h3.symm
  refine ⟨ext y, hfixed, fun g' hg' x hx => ?_⟩
  have := hfix (g' - ext y) (fun z hz => by
    rw [step_sub (conc := conc) H g' (ext y) z hz, hg' z hz, hfixed z hz]; rfl) x hx
  exact sub_eq_zero.1 this

/-- what is stored in the two orders for a flow that is `g` before the collision -/
def stored (C : Vec D → (Fin S.Q → ℝ) → Fin S.Q → ℝ) (g : Vec D → Fin S.Q → ℝ) : Order → Vec D → Fin S.Q → ℝ
  | .collideStream => g
  | .streamCollide => fun x => C x (g x)

/-- from convergence of the flow to convergence of what is stored -/
theorem stored_converges {W : Vec D → Fin S.Q → (Fin S.Q → ℝ) → ℝ} (H : System d S w inv ωs ωa C) {p : Step S ℝ} (hC : p.collide = C)
    (hp : SetUp d W p) (o : Order) (s : Pdfs D S.Q ℝ × Pdfs D S.Q ℝ) (z : Vec D → Fin S.Q → ℝ)
    (h : ∀ g : Vec D → Fin S.Q → ℝ, g = (match o with
        | .collideStream => fun x i => s.1 (x, i)
        | .streamCollide => d.stream S.c W fun x i => s.1 (x, i)) → ∀ x ∈ d.fluid, ∀ i,
      Tendsto (fun n => (d.collideStream S.c W C)^[n] g x i) atTop (𝓝 (z x i))) :
    ∃ t : ℕ → Pdfs D S.Q ℝ × Pdfs D S.Q ℝ, (∀ n, p.steps "pull" o n s = some (t n)) ∧ ∀ x ∈ d.fluid, ∀ i,
      Tendsto (fun n => (t n).1 (x, i)) atTop (𝓝 (stored C z o x i)) := by
  subst hC
  cases o with
  | collideStream =>
    choose t h1 h2 using fun n => Simulation.C105_collide_stream H.valid H.invClosed H.closed hp "pull" n s
    refine ⟨t, h1, fun x hx i => ?_⟩
    exact (h _ rfl x hx i).congr fun n => (congrFun (h2 n x hx) i).symm
  | streamCollide =>
    choose t h1 h2 using fun n => Simulation.C105_stream_collide H.valid H.invClosed H.closed hp n s
    refine ⟨t, h1, fun x hx i => ?_⟩
    rw [← tendsto_add_atTop_iff_nat 1]
    have k : Tendsto (fun n => (d.collideStream S.c W p.collide)^[n] (d.stream S.c W fun x i => s.1 (x, i)) x) atTop (𝓝 (z x)) :=
      tendsto_pi_nhds.2 fun j => h _ rfl x hx j
    have k2 := ((collide_continuous (H.collide x hx) i).tendsto (z x)).comp k
    refine k2.congr fun n => ?_
    have := congrFun (h2 (n + 1) x hx) i
    rw [streamCollide_succ] at this
    exact this.symm

/-- C109. Rates strictly between 0 and 2: from every initial state, in both orders, the simulation converges to the steady state. -/
theorem C109_converges (H : System d S w inv ωs ωa C) (hs : 0 < ωs ∧ ωs < 2) (ha : 0 < ωa ∧ ωa < 2) (i₀ : Fin S.Q)
    (hi₀ : S.c i₀ = 0) (hA : ∀ x, x ∈ A ↔ x ∈ d.fluid) (hr : Reached d S given) {p : Step S ℝ} (hC : p.collide = C)
    (hp : SetUp d (diffusionWalls w inv given conc) p) (g : Vec D → Fin S.Q → ℝ)
    (hg : ∀ x ∈ d.fluid, d.collideStream S.c (diffusionWalls w inv given conc) C g x = g x) (o : Order)
    (s : Pdfs D S.Q ℝ × Pdfs D S.Q ℝ) :
    ∃ t : ℕ → Pdfs D S.Q ℝ × Pdfs D S.Q ℝ, (∀ n, p.steps "pull" o n s = some (t n)) ∧ ∀ x ∈ d.fluid, ∀ i,
      Tendsto (fun n => (t n).1 (x, i)) atTop (𝓝 (stored C g o x i)) := by
  refine stored_converges H hC hp o s g fun g₀ _ x hx i => ?_
  have key : ∀ n, ∀ x ∈ d.fluid, (d.collideStream S.c (diffusionWalls w inv given conc) C)^[n] g₀ x =
      (d.collideStream S.c (diffusionWalls w inv given fun _ _ => 0) C)^[n] (g₀ - g) x + g x := by
    intro n
    induction n with
    | zero => intro x _; simp
    | succ n ih =>
      intro x hx
      rw [Function.iterate_succ_apply', Function.iterate_succ_apply']
      have h1 := collideStream_congr (W := diffusionWalls w inv given fun _ _ => 0) (C := C)
        (g := (d.collideStream S.c (diffusionWalls w inv given conc) C)^[n] g₀ - g)
        (g' := (d.collideStream S.c (diffusionWalls w inv given fun _ _ => 0) C)^[n] (g₀ - g)) H.closed
        (fun y hy => by rw [Pi.sub_apply, ih y hy, add_sub_cancel_right]) x hx
      rw [← h1, step_sub (conc := conc) H _ _ x hx, hg x hx, sub_add_cancel]
  have k := (vanishes H hs ha i₀ hi₀ hA hr (g₀ - g) x hx i).add_const (g x i)
  rw [zero_add] at k
  refine k.congr fun n => ?_
  rw [key n x hx, Pi.add_apply]

/-- C109. Walls that nothing passes (or none), a connected flow: from every initial state the simulation converges to the uniform
state with the mean of the initial concentration. -/
theorem C109_mean (H : System d S w inv ωs ωa C) (hs : 0 < ωs ∧ ωs < 2) (ha : 0 < ωa ∧ ωa < 2) (i₀ : Fin S.Q)
    (hi₀ : S.c i₀ = 0) (hA : ∀ x, x ∈ A ↔ x ∈ d.fluid) (hconn : ∀ x ∈ d.fluid, ∀ y ∈ d.fluid, d.Connected S.c x y) {p : Step S ℝ}
    (hC : p.collide = C) (hp : SetUp d (fun _ i f => f (inv i)) p) (o : Order) (s : Pdfs D S.Q ℝ × Pdfs D S.Q ℝ) :
    ∃ t : ℕ → Pdfs D S.Q ℝ × Pdfs D S.Q ℝ, (∀ n, p.steps "pull" o n s = some (t n)) ∧ ∀ x ∈ d.fluid, ∀ i,
      Tendsto (fun n => (t n).1 (x, i)) atTop (𝓝 (w i * ((∑ x ∈ A, ∑ i, s.1 (x, i)) / A.card))) := by
  have hW : (fun _ i f => f (inv i) : Vec D → Fin S.Q → (Fin S.Q → ℝ) → ℝ) = diffusionWalls w inv (fun _ _ => False) fun _ _ => 0 := by
    funext x i f
    simp [diffusionWalls]
  have hstream : ∀ g : Vec D → Fin S.Q → ℝ, ∑ x ∈ A, ∑ i, d.stream S.c (fun _ i f => f (inv i)) g x i = ∑ x ∈ A, ∑ i, g x i :=
    Simulation.stream_sum H.valid H.closed inv H.opp (fun _ v => v) (fun _ => rfl) (fun _ _ _ => rfl) A hA
  obtain ⟨t, h1, h2⟩ := stored_converges H hC hp o s
    (fun x i => w i * ((∑ x ∈ A, ∑ i, s.1 (x, i)) / A.card)) (by
      intro g hg
      have hmass : ∑ x ∈ A, ∑ i, g x i = ∑ x ∈ A, ∑ i, s.1 (x, i) := by
        cases o with
        | collideStream => rw [hg]
        | streamCollide => rw [hg]; exact hstream _
      rw [← hmass, hW]
      have hsum : ∀ g : Vec D → Fin S.Q → ℝ, ∑ x : A, ∑ i, g x.1 i = ∑ x ∈ A, ∑ i, g x i := fun g =>
        Finset.sum_coe_sort A fun x => ∑ i, g x i
      refine converges H.valid H.closed H.opp H.pos H.even H.one hs ha H.collide i₀ hi₀ 0 (fun _ _ h => h.elim) hA
        (fun y => ∑ x : A, ∑ i, y x i) (by fun_prop) (fun y => ?_) g _ ?_
      · unfold cellStep
        rw [hsum (d.collideStream S.c (diffusionWalls w inv (fun _ _ => False) fun _ _ => 0) C (ext y)), ← hW]
        refine (hstream _).trans ?_
        have : ∑ x ∈ A, ∑ i, C x (ext y x) i = ∑ x ∈ A, ∑ i, ext y x i :=
          Finset.sum_congr rfl fun x hx => sum_collide (H.collide x ((hA x).1 hx)) H.inv2 H.one _
        rw [this, ← hsum]
        exact Finset.sum_congr rfl fun x _ => by rw [ext_mem]
      · intro g' hm ρ r1 r2 _ x hx
        rw [hsum g', hsum g] at hm
        have hρ : ∀ y ∈ A, ∑ i, g' y i = ρ x := by
          intro y hy
          have hy' := (hA y).1 hy
          rw [Finset.sum_congr rfl fun i _ => r1 y hy' i, ← Finset.sum_mul, H.one, one_mul]
          exact (connected_eq H.closed r2 hx (hconn x hx y hy')).2
        rw [Finset.sum_congr rfl hρ, Finset.sum_const, nsmul_eq_mul] at hm
        have hcard : (A.card : ℝ) ≠ 0 := Nat.cast_ne_zero.2 (Finset.card_ne_zero_of_mem ((hA x).2 hx))
        funext i
        rw [r1 x hx i, ← hm, mul_div_cancel_left₀ _ hcard])
  refine ⟨t, h1, fun x hx i => ?_⟩
  have := h2 x hx i
  cases o with
  | collideStream => exact this
  | streamCollide =>
    refine this.trans_eq ?_
    simp only [stored]
    rw [collide_equilibrium (H.collide x hx) H.even _ fun i => by rw [← Finset.sum_mul, H.one, one_mul]]

end Domain

end Decay
end Lbm
