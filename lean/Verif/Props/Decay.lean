import Verif.Spec.Decay
import Verif.Props.LbSimulation
import Mathlib.Algebra.BigOperators.Field
import Mathlib.Analysis.Real.Sqrt
import Mathlib.Topology.Compactness.Compact
import Mathlib.Topology.Order.MonotoneConvergence
import Mathlib.Topology.Algebra.Ring.Real
import Mathlib.Tactic.Linarith
import Mathlib.Tactic.FieldSimp
import Mathlib.Tactic.LinearCombination

/-!
# C109: differences in concentration decay
-/

set_option linter.unusedSectionVars false

namespace Lbm
namespace Decay

open Spec (Domain Diffuses diffusionWalls deviation)
open Filter Topology

/-! ### One cell -/

section Cell
variable {Q : ℕ} {w : Fin Q → ℝ} {inv : Fin Q → Fin Q} {ωs ωa : ℝ} {C : (Fin Q → ℝ) → Fin Q → ℝ}

theorem Diffuses.eq (h : Diffuses w inv ωs ωa C) (f : Fin Q → ℝ) (i : Fin Q) :
    C f i = (f i + f (inv i)) / 2 + ωs * (w i * ∑ j, f j - (f i + f (inv i)) / 2) + (1 - ωa) * ((f i - f (inv i)) / 2) := by
  obtain ⟨h1, h2⟩ := h f i
  linear_combination h1 + h2

/-- what is not in equilibrium, even and odd part -/
noncomputable def evenPart (w : Fin Q → ℝ) (inv : Fin Q → Fin Q) (f : Fin Q → ℝ) (i : Fin Q) : ℝ :=
  (f i + f (inv i)) / 2 - w i * ∑ j, f j

noncomputable def oddPart (inv : Fin Q → Fin Q) (f : Fin Q → ℝ) (i : Fin Q) : ℝ := (f i - f (inv i)) / 2

theorem sum_inv (hinv2 : ∀ i, inv (inv i) = i) (p : Fin Q → ℝ) : ∑ i, p (inv i) = ∑ i, p i :=
  (show Function.Involutive inv from hinv2).bijective.sum_comp p

theorem sum_evenPart (hinv2 : ∀ i, inv (inv i) = i) (hw1 : ∑ i, w i = 1) (f : Fin Q → ℝ) : ∑ i, evenPart w inv f i = 0 := by
  unfold evenPart
  rw [Finset.sum_sub_distrib, ← Finset.sum_mul, hw1, ← Finset.sum_div, Finset.sum_add_distrib, sum_inv hinv2]
  ring

theorem sum_odd (hinv2 : ∀ i, inv (inv i) = i) (p : Fin Q → ℝ) (hp : ∀ i, p (inv i) = -p i) : ∑ i, p i = 0 := by
  have := sum_inv hinv2 p
  simp only [hp, Finset.sum_neg_distrib] at this
  linarith

theorem quad (hinv2 : ∀ i, inv (inv i) = i) (hw : ∀ i, 0 < w i) (hwi : ∀ i, w (inv i) = w i) (hw1 : ∑ i, w i = 1)
    (f : Fin Q → ℝ) (α β γ : ℝ) :
    ∑ i, (w i * α + β * evenPart w inv f i + γ * oddPart inv f i) ^ 2 / w i =
      α ^ 2 + β ^ 2 * ∑ i, evenPart w inv f i ^ 2 / w i + γ ^ 2 * ∑ i, oddPart inv f i ^ 2 / w i := by
  have e : ∀ i, (w i * α + β * evenPart w inv f i + γ * oddPart inv f i) ^ 2 / w i =
      w i * α ^ 2 + β ^ 2 * (evenPart w inv f i ^ 2 / w i) + γ ^ 2 * (oddPart inv f i ^ 2 / w i) +
      2 * α * β * evenPart w inv f i + 2 * α * γ * oddPart inv f i +
      2 * β * γ * (evenPart w inv f i * oddPart inv f i / w i) := by
    intro i
    have := (hw i).ne'
    field_simp
    ring
  have hev : ∀ i, evenPart w inv f (inv i) = evenPart w inv f i := fun i => by unfold evenPart; rw [hinv2, hwi]; ring
  have hod : ∀ i, oddPart inv f (inv i) = -oddPart inv f i := fun i => by unfold oddPart; rw [hinv2]; ring
  have o1 : ∑ i, oddPart inv f i = 0 := sum_odd hinv2 _ hod
  have o2 : ∑ i, evenPart w inv f i * oddPart inv f i / w i = 0 :=
    sum_odd hinv2 _ fun i => by rw [hev, hod, hwi]; ring
  simp only [e, Finset.sum_add_distrib, ← Finset.mul_sum, ← Finset.sum_mul, hw1, o1, o2, sum_evenPart hinv2 hw1 f]
  ring

theorem sum_collide (h : Diffuses w inv ωs ωa C) (hinv2 : ∀ i, inv (inv i) = i) (hw1 : ∑ i, w i = 1) (f : Fin Q → ℝ) :
    ∑ i, C f i = ∑ i, f i := by
  have e : ∀ i, C f i = f i + (-ωs * evenPart w inv f i + -ωa * oddPart inv f i) := by
    intro i; rw [Diffuses.eq h f i]; unfold evenPart oddPart; ring
  have hod : ∀ i, oddPart inv f (inv i) = -oddPart inv f i := fun i => by unfold oddPart; rw [hinv2]; ring
  simp only [e, Finset.sum_add_distrib, ← Finset.mul_sum, sum_evenPart hinv2 hw1 f, sum_odd hinv2 _ hod]
  ring

/-- how much a collision reduces the distance from the uniform state -/
theorem collide_energy (h : Diffuses w inv ωs ωa C) (hinv2 : ∀ i, inv (inv i) = i) (hw : ∀ i, 0 < w i)
    (hwi : ∀ i, w (inv i) = w i) (hw1 : ∑ i, w i = 1) (f : Fin Q → ℝ) (c : ℝ) :
    ∑ i, (C f i - w i * c) ^ 2 / w i = ∑ i, (f i - w i * c) ^ 2 / w i -
      (ωs * (2 - ωs) * ∑ i, evenPart w inv f i ^ 2 / w i + ωa * (2 - ωa) * ∑ i, oddPart inv f i ^ 2 / w i) := by
  have q1 := quad hinv2 hw hwi hw1 f (∑ j, f j - c) (1 - ωs) (1 - ωa)
  have q2 := quad hinv2 hw hwi hw1 f (∑ j, f j - c) 1 1
  have e1 : ∀ i, C f i - w i * c = w i * (∑ j, f j - c) + (1 - ωs) * evenPart w inv f i + (1 - ωa) * oddPart inv f i := by
    intro i; rw [Diffuses.eq h f i]; unfold evenPart oddPart; ring
  have e2 : ∀ i, f i - w i * c = w i * (∑ j, f j - c) + 1 * evenPart w inv f i + 1 * oddPart inv f i := by
    intro i; unfold evenPart oddPart; ring
  simp only [e1, e2, q1, q2]
  ring

theorem evenPart_nonneg (hw : ∀ i, 0 < w i) (f : Fin Q → ℝ) : 0 ≤ ∑ i, evenPart w inv f i ^ 2 / w i :=
  Finset.sum_nonneg fun i _ => div_nonneg (sq_nonneg _) (hw i).le

theorem oddPart_nonneg (hw : ∀ i, 0 < w i) (f : Fin Q → ℝ) : 0 ≤ ∑ i, oddPart inv f i ^ 2 / w i :=
  Finset.sum_nonneg fun i _ => div_nonneg (sq_nonneg _) (hw i).le

theorem collide_le (h : Diffuses w inv ωs ωa C) (hinv2 : ∀ i, inv (inv i) = i) (hw : ∀ i, 0 < w i)
    (hwi : ∀ i, w (inv i) = w i) (hw1 : ∑ i, w i = 1) (hs : 0 ≤ ωs ∧ ωs ≤ 2) (ha : 0 ≤ ωa ∧ ωa ≤ 2) (f : Fin Q → ℝ) (c : ℝ) :
    ∑ i, (C f i - w i * c) ^ 2 / w i ≤ ∑ i, (f i - w i * c) ^ 2 / w i := by
  rw [collide_energy h hinv2 hw hwi hw1]
  have h1 := mul_nonneg (mul_nonneg hs.1 (sub_nonneg.2 hs.2)) (evenPart_nonneg (inv := inv) hw f)
  have h2 := mul_nonneg (mul_nonneg ha.1 (sub_nonneg.2 ha.2)) (oddPart_nonneg (inv := inv) hw f)
  linarith

/-- nothing is lost only in equilibrium -/
theorem collide_eq (h : Diffuses w inv ωs ωa C) (hinv2 : ∀ i, inv (inv i) = i) (hw : ∀ i, 0 < w i)
    (hwi : ∀ i, w (inv i) = w i) (hw1 : ∑ i, w i = 1) (hs : 0 < ωs ∧ ωs < 2) (ha : 0 < ωa ∧ ωa < 2) (f : Fin Q → ℝ) (c : ℝ)
    (he : ∑ i, (C f i - w i * c) ^ 2 / w i = ∑ i, (f i - w i * c) ^ 2 / w i) : ∀ i, f i = w i * ∑ j, f j := by
  rw [collide_energy h hinv2 hw hwi hw1] at he
  have p1 : 0 < ωs * (2 - ωs) := mul_pos hs.1 (sub_pos.2 hs.2)
  have p2 : 0 < ωa * (2 - ωa) := mul_pos ha.1 (sub_pos.2 ha.2)
  have n1 := evenPart_nonneg (inv := inv) hw f
  have n2 := oddPart_nonneg (inv := inv) hw f
  have z1 : ∑ i, evenPart w inv f i ^ 2 / w i = 0 := by nlinarith [mul_nonneg p1.le n1, mul_nonneg p2.le n2]
  have z2 : ∑ i, oddPart inv f i ^ 2 / w i = 0 := by nlinarith [mul_nonneg p1.le n1, mul_nonneg p2.le n2]
  rw [Finset.sum_eq_zero_iff_of_nonneg fun i _ => div_nonneg (sq_nonneg _) (hw i).le] at z1 z2
  intro i
  have a1 : evenPart w inv f i = 0 := by
    have := z1 i (Finset.mem_univ i)
    rcases div_eq_zero_iff.1 this with h | h
    · exact pow_eq_zero_iff (two_ne_zero) |>.1 h
    · exact absurd h (hw i).ne'
  have a2 : oddPart inv f i = 0 := by
    have := z2 i (Finset.mem_univ i)
    rcases div_eq_zero_iff.1 this with h | h
    · exact pow_eq_zero_iff (two_ne_zero) |>.1 h
    · exact absurd h (hw i).ne'
  unfold evenPart at a1
  unfold oddPart at a2
  linarith

theorem collide_equilibrium (h : Diffuses w inv ωs ωa C) (hwi : ∀ i, w (inv i) = w i)
    (f : Fin Q → ℝ) (hf : ∀ i, f i = w i * ∑ j, f j) : C f = f := by
  funext i
  rw [Diffuses.eq h f i]
  have h2 := hf (inv i)
  rw [hwi, ← hf i] at h2
  rw [h2, ← hf i]; ring

theorem collide_continuous (h : Diffuses w inv ωs ωa C) (i : Fin Q) : Continuous fun f => C f i := by
  simp only [Diffuses.eq h]
  fun_prop

end Cell

/-! ### Sequences on which a quantity does not grow -/

theorem lasalle {X : Type} [TopologicalSpace X] (T : X → X) (hT : Continuous T) (E m : X → ℝ) (hE : Continuous E) (hm : Continuous m)
    (hdec : ∀ y, E (T y) ≤ E y) (hcons : ∀ y, m (T y) = m y) (hpos : ∀ y, 0 ≤ E y) {K : Set X} (hK : IsCompact K) (x₀ z : X)
    (horb : ∀ n, T^[n] x₀ ∈ K) (huniq : ∀ y, m y = m x₀ → (∀ n, E (T^[n] y) = E y) → y = z) :
    Tendsto (fun n => T^[n] x₀) atTop (𝓝 z) := by
  have hanti : Antitone fun n => E (T^[n] x₀) := antitone_nat_of_succ_le fun n => by
    rw [Function.iterate_succ_apply']; exact hdec _
  have hbdd : BddBelow (Set.range fun n => E (T^[n] x₀)) := ⟨0, by rintro _ ⟨n, rfl⟩; exact hpos _⟩
  obtain ⟨L, hL⟩ : ∃ L, Tendsto (fun n => E (T^[n] x₀)) atTop (𝓝 L) := ⟨_, tendsto_atTop_ciInf hanti hbdd⟩
  refine hK.tendsto_nhds_of_unique_mapClusterPt (Eventually.of_forall horb) fun y _ hy => huniq y ?_ ?_
  · have h1 : MapClusterPt (m y) atTop (m ∘ fun n => T^[n] x₀) := hy.continuousAt_comp hm.continuousAt
    have h2 : Tendsto (m ∘ fun n => T^[n] x₀) atTop (𝓝 (m x₀)) := by
      have : (m ∘ fun n => T^[n] x₀) = fun _ => m x₀ := by
        funext n
        show m (T^[n] x₀) = _
        induction n with
        | zero => rfl
        | succ n ih => rw [Function.iterate_succ_apply', hcons, ih]
      rw [this]; exact tendsto_const_nhds
    have : NeBot (𝓝 (m y) ⊓ 𝓝 (m x₀)) := NeBot.mono h1 (inf_le_inf_left _ h2)
    exact eq_of_nhds_neBot ‹_›
  · have key : ∀ k, E (T^[k] y) = L := by
      intro k
      have h1 : MapClusterPt (E (T^[k] y)) atTop ((fun y => E (T^[k] y)) ∘ fun n => T^[n] x₀) :=
        hy.continuousAt_comp (f := fun y => E (T^[k] y)) (hE.comp (hT.iterate k)).continuousAt
      have h2 : Tendsto ((fun y => E (T^[k] y)) ∘ fun n => T^[n] x₀) atTop (𝓝 L) := by
        have : ((fun y => E (T^[k] y)) ∘ fun n => T^[n] x₀) = fun n => E (T^[n + k] x₀) := by
          funext n
          show E (T^[k] (T^[n] x₀)) = _
          rw [← Function.iterate_add_apply, add_comm]
        rw [this]
        exact hL.comp (tendsto_add_atTop_nat k)
      have : NeBot (𝓝 (E (T^[k] y)) ⊓ 𝓝 L) := NeBot.mono h1 (inf_le_inf_left _ h2)
      exact eq_of_nhds_neBot ‹_›
    intro n
    rw [key n]
    exact (key 0).symm

/-! ### The domain -/

section Domain
variable {D : ℕ} {S : Stencil D} {d : Domain D} {w : Fin S.Q → ℝ} {inv : Fin S.Q → Fin S.Q} {ωs ωa c : ℝ} {conc : Vec D → Fin S.Q → ℝ}
  {given : Vec D → Fin S.Q → Prop} {C : Vec D → (Fin S.Q → ℝ) → Fin S.Q → ℝ} {A : Finset (Vec D)}

theorem image_fluid (hd : d.Closed S.c) {x : Vec D} (hx : x ∈ d.fluid) {i : Fin S.Q} (hw : ¬ d.wall (x - S.c i)) :
    d.image (x - S.c i) ∈ d.fluid := by
  obtain ⟨h7, h8⟩ := hd x hx i
  have hin : d.Inner (d.image (x - S.c i)) := by
    by_contra hn; exact hw (h8 hn)
  exact ⟨hin, fun hw' => hw ((h7 hin).2 hw')⟩

theorem image_self {x : Vec D} (hx : x ∈ d.fluid) : d.image x = x := by
  funext k
  obtain ⟨h1, h2⟩ := hx.1 k
  simp only [Domain.image]
  split
  · exact Int.emod_eq_of_lt h1 h2
  · rfl

theorem stream_deviation (hv : S.Valid) (hd : d.Closed S.c) (hinv : ∀ i, S.c (inv i) = -S.c i) (hwi : ∀ i, w (inv i) = w i)
    (c : ℝ) (hgiven : ∀ x i, given x i → conc x i = c) (hA : ∀ x, x ∈ A ↔ x ∈ d.fluid) (g : Vec D → Fin S.Q → ℝ) :
    deviation w c A (d.stream S.c (diffusionWalls w inv given conc) g) = deviation w c A g := by
  unfold deviation
  refine Simulation.stream_sum hv hd inv hinv (fun i v => (v - w i * c) ^ 2 / w i) (fun i => by funext v; rw [hwi]) ?_ A hA g
  intro x i f
  unfold diffusionWalls
  split
  · rename_i hg
    rw [hgiven x i hg]; ring
  · rfl

/-- C109. One time step does not increase the distance from the uniform concentration, in both orders. -/
theorem deviation_le (hv : S.Valid) (hd : d.Closed S.c) (hinv : ∀ i, S.c (inv i) = -S.c i) (hw : ∀ i, 0 < w i)
    (hwi : ∀ i, w (inv i) = w i) (hw1 : ∑ i, w i = 1) (hs : 0 ≤ ωs ∧ ωs ≤ 2) (ha : 0 ≤ ωa ∧ ωa ≤ 2)
    (hC : ∀ x ∈ d.fluid, Diffuses w inv ωs ωa (C x)) (c : ℝ) (hgiven : ∀ x i, given x i → conc x i = c)
    (hA : ∀ x, x ∈ A ↔ x ∈ d.fluid) (g : Vec D → Fin S.Q → ℝ) :
    deviation w c A (d.collideStream S.c (diffusionWalls w inv given conc) C g) ≤ deviation w c A g ∧
    deviation w c A (d.streamCollide S.c (diffusionWalls w inv given conc) C g) ≤ deviation w c A g := by
  have hinv2 : ∀ i, inv (inv i) = i := fun i => hv (by rw [hinv, hinv, neg_neg])
  have hst := fun g => stream_deviation (A := A) (given := given) hv hd hinv hwi c hgiven hA g
  have hco : ∀ g : Vec D → Fin S.Q → ℝ, deviation w c A (fun x => C x (g x)) ≤ deviation w c A g := fun g =>
    Finset.sum_le_sum fun x hx => collide_le (hC x ((hA x).1 hx)) hinv2 hw hwi hw1 hs ha (g x) c
  exact ⟨(hst _).trans_le (hco g), (hco _).trans_eq (hst g)⟩

/-- Nothing changes in the distance from the uniform concentration only in states with the same concentration in neighbouring cells,
that of the walls next to walls with given concentration. -/
theorem deviation_eq (hv : S.Valid) (hd : d.Closed S.c) (hinv : ∀ i, S.c (inv i) = -S.c i) (hw : ∀ i, 0 < w i)
    (hwi : ∀ i, w (inv i) = w i) (hw1 : ∑ i, w i = 1) (hs : 0 < ωs ∧ ωs < 2) (ha : 0 < ωa ∧ ωa < 2)
    (hC : ∀ x ∈ d.fluid, Diffuses w inv ωs ωa (C x)) (i₀ : Fin S.Q) (hi₀ : S.c i₀ = 0) (c : ℝ)
    (hgiven : ∀ x i, given x i → conc x i = c) (hA : ∀ x, x ∈ A ↔ x ∈ d.fluid) (g : Vec D → Fin S.Q → ℝ)
    (h1 : deviation w c A (d.collideStream S.c (diffusionWalls w inv given conc) C g) = deviation w c A g)
    (h2 : deviation w c A (d.collideStream S.c (diffusionWalls w inv given conc) C
      (d.collideStream S.c (diffusionWalls w inv given conc) C g)) =
      deviation w c A (d.collideStream S.c (diffusionWalls w inv given conc) C g)) :
    ∃ ρ : Vec D → ℝ, (∀ x ∈ d.fluid, ∀ i, g x i = w i * ρ x) ∧
      (∀ x ∈ d.fluid, ∀ y, d.Linked S.c x y → ρ y = ρ x) ∧ ∀ x ∈ d.fluid, ∀ i, d.wall (x - S.c i) → given x i → ρ x = conc x i := by
  have hinv2 : ∀ i, inv (inv i) = i := fun i => hv (by rw [hinv, hinv, neg_neg])
  have hst := fun g => stream_deviation (A := A) (given := given) hv hd hinv hwi c hgiven hA g
  have hs' : 0 ≤ ωs ∧ ωs ≤ 2 := ⟨hs.1.le, hs.2.le⟩
  have ha' : 0 ≤ ωa ∧ ωa ≤ 2 := ⟨ha.1.le, ha.2.le⟩
  have heq : ∀ g : Vec D → Fin S.Q → ℝ,
      deviation w c A (d.collideStream S.c (diffusionWalls w inv given conc) C g) = deviation w c A g →
      ∀ x ∈ d.fluid, ∀ i, g x i = w i * ∑ j, g x j := by
    intro g h x hx
    unfold Domain.collideStream at h
    rw [hst] at h
    have hle : ∀ y ∈ A, ∑ i, (C y (g y) i - w i * c) ^ 2 / w i ≤ ∑ i, (g y i - w i * c) ^ 2 / w i := fun y hy =>
      collide_le (hC y ((hA y).1 hy)) hinv2 hw hwi hw1 hs' ha' (g y) c
    exact collide_eq (hC x hx) hinv2 hw hwi hw1 hs ha (g x) c ((Finset.sum_eq_sum_iff_of_le hle).1 h x ((hA x).2 hx))
  have e0 := heq g h1
  have e1 := heq _ h2
  have hT : ∀ x ∈ d.fluid, ∀ i, d.collideStream S.c (diffusionWalls w inv given conc) C g x i =
      d.stream S.c (diffusionWalls w inv given conc) g x i := by
    intro x hx i
    refine congrFun (Simulation.stream_congr (W := diffusionWalls w inv given conc) hd (fun y hy => ?_) x hx) i
    exact collide_equilibrium (hC y hy) hwi (g y) (e0 y hy)
  have hrest : ∀ x ∈ d.fluid, ∑ j, d.collideStream S.c (diffusionWalls w inv given conc) C g x j = ∑ j, g x j := by
    intro x hx
    have a1 := hT x hx i₀
    simp only [Domain.stream] at a1
    rw [if_neg (by rw [hi₀, sub_zero]; exact hx.2), hi₀, sub_zero, image_self hx, e1 x hx i₀, e0 x hx i₀] at a1
    exact mul_left_cancel₀ (hw i₀).ne' a1
  refine ⟨fun x => ∑ j, g x j, e0, ?_, ?_⟩
  · rintro x hx y ⟨i, hwl, rfl⟩
    have a1 := hT x hx i
    simp only [Domain.stream, if_neg hwl] at a1
    rw [e1 x hx i, e0 _ (image_fluid hd hx hwl) i, hrest x hx] at a1
    exact (mul_left_cancel₀ (hw i).ne' a1).symm
  · intro x hx i hwl hg
    have a1 := hT x hx i
    simp only [Domain.stream, if_pos hwl, diffusionWalls, if_pos hg] at a1
    rw [e1 x hx i, e0 x hx (inv i), hrest x hx, hwi] at a1
    refine mul_left_cancel₀ (hw i).ne' ?_
    linear_combination a1 / 2

/-- a state of the cells of the flow, zero elsewhere -/
noncomputable def ext (y : A → Fin S.Q → ℝ) : Vec D → Fin S.Q → ℝ := by
  classical exact fun x i => if h : x ∈ A then y ⟨x, h⟩ i else 0

theorem ext_mem (y : A → Fin S.Q → ℝ) (x : A) : ext y x.1 = y x := by
  funext i
  unfold ext
  rw [dif_pos x.2]

/-- one step of the state of the cells of the flow -/
noncomputable def cellStep (d : Domain D) (A : Finset (Vec D)) (W : Vec D → Fin S.Q → (Fin S.Q → ℝ) → ℝ)
    (C : Vec D → (Fin S.Q → ℝ) → Fin S.Q → ℝ) (y : A → Fin S.Q → ℝ) : A → Fin S.Q → ℝ :=
  fun x => d.collideStream S.c W C (ext y) x.1

theorem collideStream_congr {W : Vec D → Fin S.Q → (Fin S.Q → ℝ) → ℝ} (hd : d.Closed S.c) {g g' : Vec D → Fin S.Q → ℝ}
    (h : ∀ x ∈ d.fluid, g x = g' x) : ∀ x ∈ d.fluid, d.collideStream S.c W C g x = d.collideStream S.c W C g' x :=
  Simulation.stream_congr hd fun x hx => by rw [h x hx]

theorem cellStep_iterate {W : Vec D → Fin S.Q → (Fin S.Q → ℝ) → ℝ} (hd : d.Closed S.c) (hA : ∀ x, x ∈ A ↔ x ∈ d.fluid)
    (g : Vec D → Fin S.Q → ℝ) (n : ℕ) :
    (cellStep d A W C)^[n] (fun x => g x.1) = fun x => (d.collideStream S.c W C)^[n] g x.1 := by
  induction n with
  | zero => rfl
  | succ n ih =>
    rw [Function.iterate_succ_apply', ih]
    funext x
    rw [Function.iterate_succ_apply']
    unfold cellStep
    refine collideStream_congr hd (fun y hy => ?_) x.1 ((hA _).1 x.2)
    exact ext_mem _ ⟨y, (hA y).2 hy⟩

theorem deviation_congr {g g' : Vec D → Fin S.Q → ℝ} (h : ∀ x ∈ A, g x = g' x) : deviation w c A g = deviation w c A g' :=
  Finset.sum_congr rfl fun x hx => by rw [h x hx]

theorem cellStep_continuous {W : Vec D → Fin S.Q → (Fin S.Q → ℝ) → ℝ} (hd : d.Closed S.c) (hA : ∀ x, x ∈ A ↔ x ∈ d.fluid)
    (hC : ∀ x ∈ d.fluid, ∀ i, Continuous fun f => C x f i) (hW : ∀ x i, Continuous (W x i)) :
    Continuous (cellStep d A W C) := by
  refine continuous_pi fun x => continuous_pi fun i => ?_
  have hx := (hA x.1).1 x.2
  have hloc : ∀ z ∈ d.fluid, Continuous fun y : A → Fin S.Q → ℝ => C z (ext y z) := by
    intro z hz
    refine continuous_pi fun j => (hC z hz j).comp ?_
    have : (fun y : A → Fin S.Q → ℝ => ext y z) = fun y => y ⟨z, (hA z).2 hz⟩ := funext fun y => ext_mem y ⟨z, (hA z).2 hz⟩
    rw [this]
    exact continuous_apply _
  unfold cellStep
  simp only [Domain.collideStream, Domain.stream]
  by_cases hwl : d.wall (x.1 - S.c i)
  · simp only [if_pos hwl]
    exact (hW x.1 i).comp (hloc _ hx)
  · simp only [if_neg hwl]
    exact (continuous_apply i).comp (hloc _ (image_fluid hd hx hwl))

/-- Convergence: `z` is the only state in which the distance from the uniform state does not get smaller. -/
theorem converges (hv : S.Valid) (hd : d.Closed S.c) (hinv : ∀ i, S.c (inv i) = -S.c i) (hw : ∀ i, 0 < w i)
    (hwi : ∀ i, w (inv i) = w i) (hw1 : ∑ i, w i = 1) (hs : 0 < ωs ∧ ωs < 2) (ha : 0 < ωa ∧ ωa < 2)
    (hC : ∀ x ∈ d.fluid, Diffuses w inv ωs ωa (C x)) (i₀ : Fin S.Q) (hi₀ : S.c i₀ = 0) (c : ℝ)
    (hgiven : ∀ x i, given x i → conc x i = c) (hA : ∀ x, x ∈ A ↔ x ∈ d.fluid) (m : (A → Fin S.Q → ℝ) → ℝ) (hm : Continuous m)
    (hcons : ∀ y, m (cellStep d A (diffusionWalls w inv given conc) C y) = m y) (g : Vec D → Fin S.Q → ℝ) (z : Vec D → Fin S.Q → ℝ)
    (huniq : ∀ g' : Vec D → Fin S.Q → ℝ, m (fun x => g' x.1) = m (fun x => g x.1) → ∀ ρ : Vec D → ℝ,
      (∀ x ∈ d.fluid, ∀ i, g' x i = w i * ρ x) → (∀ x ∈ d.fluid, ∀ y, d.Linked S.c x y → ρ y = ρ x) →
      (∀ x ∈ d.fluid, ∀ i, d.wall (x - S.c i) → given x i → ρ x = conc x i) → ∀ x ∈ d.fluid, g' x = z x) :
    ∀ x ∈ d.fluid, ∀ i, Tendsto (fun n => (d.collideStream S.c (diffusionWalls w inv given conc) C)^[n] g x i) atTop (𝓝 (z x i)) := by
  set T := cellStep d A (diffusionWalls w inv given conc) C with hTdef
  set E : (A → Fin S.Q → ℝ) → ℝ := fun y => deviation w c A (ext y) with hEdef
  have hext : ∀ y : A → Fin S.Q → ℝ, ∀ x ∈ A, ext (T y) x =
      d.collideStream S.c (diffusionWalls w inv given conc) C (ext y) x := fun y x hx => ext_mem (T y) ⟨x, hx⟩
  have hET : ∀ y, E (T y) = deviation w c A (d.collideStream S.c (diffusionWalls w inv given conc) C (ext y)) := fun y =>
    deviation_congr (hext y)
  have hEc : Continuous E := by
    have : E = fun y => ∑ x : A, ∑ i, (y x i - w i * c) ^ 2 / w i := by
      funext y
      show deviation w c A (ext y) = _
      unfold deviation
      rw [← Finset.sum_coe_sort A]
      exact Finset.sum_congr rfl fun x _ => by rw [ext_mem]
    rw [this]
    fun_prop
  have hdec : ∀ y, E (T y) ≤ E y := fun y => by
    rw [hET]
    exact (deviation_le hv hd hinv hw hwi hw1 ⟨hs.1.le, hs.2.le⟩ ⟨ha.1.le, ha.2.le⟩ hC c hgiven hA _).1
  have hpos : ∀ y, 0 ≤ E y := fun y =>
    Finset.sum_nonneg fun x _ => Finset.sum_nonneg fun i _ => div_nonneg (sq_nonneg _) (hw i).le
  set y₀ : A → Fin S.Q → ℝ := fun x => g x.1 with hy₀
  have hbound : ∀ y, E y ≤ E y₀ → ∀ x i, y x i ∈ Set.Icc (w i * c - √(w i * E y₀)) (w i * c + √(w i * E y₀)) := by
    intro y hy x i
    have h1 : (y x i - w i * c) ^ 2 / w i ≤ E y := by
      have a1 : (ext y x.1 i - w i * c) ^ 2 / w i ≤ ∑ i, (ext y x.1 i - w i * c) ^ 2 / w i :=
        Finset.single_le_sum (f := fun i => (ext y x.1 i - w i * c) ^ 2 / w i)
          (fun i _ => div_nonneg (sq_nonneg _) (hw i).le) (Finset.mem_univ i)
      have a2 : ∑ i, (ext y x.1 i - w i * c) ^ 2 / w i ≤ E y :=
        Finset.single_le_sum (f := fun x => ∑ i, (ext y x i - w i * c) ^ 2 / w i)
          (fun x _ => Finset.sum_nonneg fun i _ => div_nonneg (sq_nonneg _) (hw i).le) x.2
      rw [ext_mem] at a1 a2
      exact a1.trans a2
    have h2 : (y x i - w i * c) ^ 2 ≤ w i * E y₀ := by
      have := (div_le_iff₀ (hw i)).1 (h1.trans hy)
      linarith
    have h3 := abs_le.1 (Real.abs_le_sqrt h2)
    constructor <;> linarith [h3.1, h3.2]
  have horb : ∀ n, E (T^[n] y₀) ≤ E y₀ := by
    intro n
    induction n with
    | zero => exact le_rfl
    | succ n ih => rw [Function.iterate_succ_apply']; exact (hdec _).trans ih
  have hK : IsCompact (Set.pi Set.univ fun _ : A => Set.pi Set.univ fun i : Fin S.Q =>
      Set.Icc (w i * c - √(w i * E y₀)) (w i * c + √(w i * E y₀))) :=
    isCompact_univ_pi fun _ => isCompact_univ_pi fun _ => isCompact_Icc
  have hTc : Continuous T := by
    refine cellStep_continuous hd hA (fun x hx i => collide_continuous (hC x hx) i) fun x i => ?_
    unfold diffusionWalls
    by_cases hg : given x i
    · simp only [if_pos hg]; fun_prop
    · simp only [if_neg hg]; fun_prop
  have key := lasalle T hTc E m hEc hm hdec hcons hpos hK y₀ (fun x => z x.1)
    (fun n => by
      simp only [Set.mem_pi, Set.mem_univ, forall_const]
      exact hbound _ (horb n)) (by
      intro y hmy hE
      have a1 : deviation w c A (d.collideStream S.c (diffusionWalls w inv given conc) C (ext y)) = deviation w c A (ext y) := by
        rw [← hET]; exact hE 1
      have a2 : deviation w c A (d.collideStream S.c (diffusionWalls w inv given conc) C
          (d.collideStream S.c (diffusionWalls w inv given conc) C (ext y))) =
          deviation w c A (d.collideStream S.c (diffusionWalls w inv given conc) C (ext y)) := by
        have b1 : E (T (T y)) = E (T y) := (hE 2).trans (hE 1).symm
        rw [hET, hET] at b1
        rw [← b1]
        exact deviation_congr fun x hx => (collideStream_congr hd (fun y' hy' => hext y y' ((hA y').2 hy')) x ((hA x).1 hx)).symm
      obtain ⟨ρ, r1, r2, r3⟩ := deviation_eq hv hd hinv hw hwi hw1 hs ha hC i₀ hi₀ c hgiven hA (ext y) a1 a2
      have a3 : (fun x : A => ext y x.1) = y := funext fun x => ext_mem y x
      have := huniq (ext y) (by rw [a3, hmy]) ρ r1 r2 r3
      rw [← a3]
      exact funext fun x => this x.1 ((hA x.1).1 x.2))
  intro x hx i
  have k1 := (tendsto_pi_nhds.1 ((tendsto_pi_nhds.1 key) ⟨x, (hA x).2 hx⟩)) i
  refine k1.congr fun n => ?_
  rw [hTdef, hy₀, cellStep_iterate hd hA g n]

end Domain

end Decay
end Lbm
