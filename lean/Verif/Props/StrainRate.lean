/-
Property theorems C101: reading and setting populations before the collision; the strain rate tensor.
-/
import Verif.StrainRate
import Verif.Sweep
import Verif.Props.Maxwellian
import Verif.Props.Equilibrium
import Verif.Props.Streaming
import Mathlib.Tactic.LinearCombination
import Mathlib.LinearAlgebra.Pi
import Mathlib.Algebra.BigOperators.Field
import Mathlib.Data.List.FinRange

namespace Lbm
namespace StrainRate

open Spec

variable {K : Type} {D Q : ℕ}

/-! ### Populations before the collision -/

/-- C101: with the patterns that use two arrays, the populations accessed as "before the collision" are the ones the next step reads:
what is set there is what it gets. -/
theorem C101_pre_two_arrays {S : Stencil D} {p : String} (hs : Supported S p) (hp : isInplace p = some false) (t : ℕ) :
    ∃ ts acc, stepTimestep p t = some ts ∧ fieldAccesses S true p ts true = .ok (some acc) ∧
      (∀ arr : Vec D × Fin S.Q → K, readPops (.id _) S p (t + 1) arr = some (pops acc arr)) ∧
      (∀ (h : Vec D → Fin S.Q → K) cells arr, ∃ r, readPops (.id _) S p (t + 1) (store acc h cells arr) = some r ∧
        ∀ x ∈ cells, r x = h x) := by
  obtain ⟨ts, a, rd, wr, rd', h1, F, hr, hw, hr'⟩ := runFacts (G := Vec D) (V := K) hs t
  have hts : ts = .both := by
    simp only [stepTimestep, getTimesteps, hp, Option.bind_eq_bind, Option.bind_some] at h1
    have h2 := List.mem_of_getElem? h1
    simpa using h2
  subst hts
  obtain ⟨a', g1, g2⟩ := F.next
  have e : a' = a := by
    have := F.acc
    rw [show Timestep.next .both = .both from rfl] at g1
    rw [g1] at this
    exact Option.some.inj this
  subst e
  have hrd : rd' = rd := by
    have := F.read
    rw [g2] at this
    exact Option.some.inj this
  subst hrd
  refine ⟨.both, rd', h1, by simp [fieldAccesses, F.acc, F.read], fun arr => hr' arr _, fun h cells arr => ⟨_, hr' _ _, fun x hx => ?_⟩⟩
  funext i
  exact sweepTwo_mem (.id _) _ F.rd_inj cells arr arr x hx i

/-- every in-place pattern stores the populations of a cell where it read those of the opposite directions -/
theorem inplace_inverse {S : Stencil D} (hv : S.Valid) {p : String} (hp : isInplace p = some true) {ts : Timestep} {a : Accessor D}
    {rd wr rd' : Fin S.Q → Access D S.Q} (F : StepFacts S p ts a rd wr rd') :
    ∃ inv : Fin S.Q → Fin S.Q, (∀ i, S.c (inv i) = -S.c i) ∧ (∀ i, inv (inv i) = i) ∧ ∀ i, rd i = wr (inv i) := by
  have hin : a.isInplace = true := by
    have := F.flag
    rw [hp] at this
    exact (Option.some.inj this).symm
  obtain ⟨σ, -, h1, h2⟩ := F.inplace hin
  have h3 : ∀ i, σ (σ i) = i := fun i => hv (by rw [h2, h2, neg_neg])
  exact ⟨σ, h2, h3, fun i => by rw [h1, h3]⟩

/-- C101, a disagreement: with the in-place patterns, after a step with time step `ts`, the populations accessed as "before the collision"
with `previous_timestep = ts` are those after the collision, of the opposite directions: the density is right and the momentum
has the wrong sign. -/
theorem C101_pre_inplace_reversed [Field K] {S : Stencil D} {p : String} (hs : Supported S p) (hp : isInplace p = some true) (t : ℕ) :
    ∃ ts acc post, stepTimestep p t = some ts ∧ fieldAccesses S true p ts true = .ok (some acc) ∧
      fieldAccesses S true p ts false = .ok (some post) ∧ ∀ (arr : Vec D × Fin S.Q → K) (x : Vec D),
        writtenPops (.id _) S p t arr = some (pops post arr) ∧
        ∑ i, pops acc arr x i = ∑ i, pops post arr x i ∧
        (∀ a, ∑ i, pops acc arr x i * (S.c i a : K) = -∑ i, pops post arr x i * (S.c i a : K)) ∧
        ∃ inv : Fin S.Q → Fin S.Q, (∀ i, S.c (inv i) = -S.c i) ∧ ∀ i, pops acc arr x i = pops post arr x (inv i) := by
  obtain ⟨ts, a, rd, wr, rd', h1, F, hr, hw, hr'⟩ := runFacts (G := Vec D) (V := K) hs t
  obtain ⟨inv, i1, i2, i3⟩ := inplace_inverse hs.2.1 hp F
  refine ⟨ts, rd, wr, h1, by simp [fieldAccesses, F.acc, F.read], by simp [fieldAccesses, F.acc, F.write], fun arr x => ?_⟩
  have hbij : Function.Bijective inv := Function.Involutive.bijective i2
  have hpop : ∀ i, pops rd arr x i = pops wr arr x (inv i) := fun i => by unfold pops; rw [i3]
  refine ⟨hw arr _, ?_, fun a => ?_, inv, i1, hpop⟩
  · rw [← hbij.sum_comp (pops wr arr x)]
    exact Finset.sum_congr rfl fun i _ => hpop i
  · rw [← hbij.sum_comp fun i => pops wr arr x i * (S.c i a : K), ← Finset.sum_neg_distrib]
    refine Finset.sum_congr rfl fun i _ => ?_
    rw [hpop, i1]
    simp

/-- C101, a disagreement: with the in-place patterns, what is set as populations "before the collision" is not what the next step reads: it
gets the population that was set for the opposite direction in the neighbour cell. -/
theorem C101_set_pre_inplace {S : Stencil D} {p : String} (hs : Supported S p) (hp : isInplace p = some true) (t : ℕ) :
    ∃ ts acc, ∃ inv : Fin S.Q → Fin S.Q, stepTimestep p t = some ts ∧ fieldAccesses S true p ts true = .ok (some acc) ∧
      (∀ i, S.c (inv i) = -S.c i) ∧ ∀ (h : Vec D → Fin S.Q → K) cells arr,
        ∃ r, readPops (.id _) S p (t + 1) (store acc h cells arr) = some r ∧
          ∀ x i, x - S.c i ∈ cells → r x i = h (x - S.c i) (inv i) := by
  obtain ⟨ts, a, rd, wr, rd', h1, F, hr, hw, hr'⟩ := runFacts (G := Vec D) (V := K) hs t
  obtain ⟨inv, i1, i2, i3⟩ := inplace_inverse hs.2.1 hp F
  refine ⟨ts, rd, inv, h1, by simp [fieldAccesses, F.acc, F.read], i1, fun h cells arr => ⟨_, hr' _ _, fun x i hx => ?_⟩⟩
  have e : loc (.id (Vec D)) x (rd' i) = loc (.id (Vec D)) (x - S.c i) (rd (inv i)) := by
    rw [i3, i2, loc_wr _ F]
    simp
  show store rd h cells arr (loc (.id (Vec D)) x (rd' i)) = _
  rw [e]
  exact sweepTwo_mem (.id _) _ F.rd_inj cells arr arr _ hx _

/-- C101: sequences of symbols instead of a field are only accepted for pull and populations after the collision. -/
theorem C101_symbols (S : Stencil D) (p : String) (ts : Timestep) (pre : Bool) :
    fieldAccesses S false p ts pre = if p = "pull" ∧ pre = false then .ok none else .error .valueError := by
  cases pre <;> simp [fieldAccesses]

/-! ### The strain rate -/

section
variable [Field K]

theorem range_flatMap (m n : ℕ) : ((List.range m).flatMap fun i => (List.range n).map fun j => i * n + j) = List.range (m * n) := by
  induction m with
  | zero => simp
  | succ m ih =>
    rw [List.range_succ, List.flatMap_append, ih]
    simp only [List.flatMap_cons, List.flatMap_nil, List.append_nil]
    rw [Nat.succ_mul, List.range_add]

/-- C101: the tensor is symmetric, every component of it is assigned exactly once, and it vanishes in equilibrium. -/
theorem C101_assignments (c : Fin Q → Fin D → K) (omega rho : K) (eq f : Fin Q → K) :
    (∀ i j, strainRate c omega rho eq f i j = strainRate c omega rho eq f j i) ∧
    ((assignments c omega rho eq f).map (·.1) = List.range (D * D)) ∧
    (∀ i j : Fin D, (i.val * D + j.val, strainRate c omega rho eq f i j) ∈ assignments c omega rho eq f) ∧
    strainRate c omega rho eq eq = 0 := by
  refine ⟨fun i j => ?_, ?_, fun i j => ?_, ?_⟩
  · unfold strainRate secondMoments
    simp only [mul_comm (c _ j)]
  · rw [← range_flatMap, ← List.map_coe_finRange_eq_range (n := D)]
    simp only [assignments, List.map_flatMap, List.flatMap_map, List.map_map]
    rfl
  · exact List.mem_flatMap.2 ⟨i, List.mem_finRange i, List.mem_map.2 ⟨j, List.mem_finRange j, rfl⟩⟩
  · funext i j
    simp [strainRate, secondMoments]

/-! ### An exact flow -/

/-- velocity of a linear flow with gradient `G` -/
def linearVelocity (G : Fin D → Fin D → K) (x : Vec D) (a : Fin D) : K := ∑ b, G a b * (x b : K)

/-- the equilibrium linear in the velocity -/
def linearEq (c : Fin Q → Fin D → K) (w : Fin Q → K) (cs : K) (rho : K) (u : Fin D → K) (q : Fin Q) : K :=
  w q * rho * (1 + (∑ a, c q a * u a) / cs)

/-- a collision: the deviation from the equilibrium at density and velocity of the populations is relaxed by the linear map `R` -/
def collide (c : Fin Q → Fin D → K) (w : Fin Q → K) (cs : K) (R : (Fin Q → K) →ₗ[K] (Fin Q → K)) (f : Fin Q → K) : Fin Q → K :=
  f - R (f - linearEq c w cs (∑ q, f q) fun a => (∑ q, f q * c q a) / ∑ q, f q)

/-- the deviation from equilibrium in a flow with gradient `G` -/
def deviation (c : Fin Q → Fin D → K) (w : Fin Q → K) (cs omega rho : K) (G : Fin D → Fin D → K) (q : Fin Q) : K :=
  -(rho / (cs * omega)) * w q * ∑ a, ∑ b, c q a * c q b * G a b

/-- the populations of the flow -/
def flow (c : Fin Q → Fin D → K) (w : Fin Q → K) (cs omega rho : K) (G : Fin D → Fin D → K) (x : Vec D) (q : Fin Q) : K :=
  linearEq c w cs rho (linearVelocity G x) q + deviation c w cs omega rho G q

variable {c : Fin Q → Fin D → K} {w : Fin Q → K} {cs : K}

theorem sum_deviation (iso : Isotropic5 c w cs) (omega rho : K) {G : Fin D → Fin D → K} (hG : ∑ a, G a a = 0) :
    ∑ q, deviation c w cs omega rho G q = 0 := by
  have : ∑ q, deviation c w cs omega rho G q = -(rho / (cs * omega)) * ∑ a, ∑ b, (∑ q, w q * c q a * c q b) * G a b := by
    simp only [deviation, Finset.mul_sum, Finset.sum_mul]
    rw [Finset.sum_comm]
    refine Finset.sum_congr rfl fun a _ => ?_
    rw [Finset.sum_comm]
    refine Finset.sum_congr rfl fun b _ => Finset.sum_congr rfl fun q _ => by ring
  rw [this]
  simp only [iso.m2, Spec.δ]
  have : ∀ a, ∑ b, cs * (if a = b then (1 : K) else 0) * G a b = cs * G a a := fun a => by simp
  simp only [this, ← Finset.mul_sum, hG, mul_zero]

theorem sum_deviation_c (iso : Isotropic5 c w cs) (omega rho : K) (G : Fin D → Fin D → K) (d : Fin D) :
    ∑ q, deviation c w cs omega rho G q * c q d = 0 := by
  have : ∑ q, deviation c w cs omega rho G q * c q d =
      -(rho / (cs * omega)) * ∑ a, ∑ b, (∑ q, w q * c q a * c q b * c q d) * G a b := by
    simp only [deviation, Finset.mul_sum, Finset.sum_mul]
    rw [Finset.sum_comm]
    refine Finset.sum_congr rfl fun a _ => ?_
    rw [Finset.sum_comm]
    refine Finset.sum_congr rfl fun b _ => Finset.sum_congr rfl fun q _ => by ring
  rw [this]
  simp [iso.m3]

theorem second_deviation (iso : Isotropic5 c w cs) (omega rho : K) {G : Fin D → Fin D → K} (hG : ∑ a, G a a = 0) (hcs : cs ≠ 0)
    (d e : Fin D) :
    secondMoments c (deviation c w cs omega rho G) d e = -(rho * cs / omega) * (G d e + G e d) := by
  have h : secondMoments c (deviation c w cs omega rho G) d e =
      -(rho / (cs * omega)) * ∑ a, ∑ b, (∑ q, w q * c q a * c q b * c q d * c q e) * G a b := by
    simp only [secondMoments, deviation, Finset.mul_sum, Finset.sum_mul]
    rw [Finset.sum_comm]
    refine Finset.sum_congr rfl fun a _ => ?_
    rw [Finset.sum_comm]
    refine Finset.sum_congr rfl fun b _ => Finset.sum_congr rfl fun q _ => by ring
  rw [h]
  simp only [iso.m4, Spec.δ]
  have h2 : ∑ a, ∑ b, cs ^ 2 * ((if a = b then (1 : K) else 0) * (if d = e then 1 else 0) +
      (if a = d then 1 else 0) * (if b = e then 1 else 0) + (if a = e then 1 else 0) * (if b = d then 1 else 0)) * G a b =
      cs ^ 2 * (G d e + G e d) := by
    have e1 : ∀ a b, cs ^ 2 * ((if a = b then (1 : K) else 0) * (if d = e then 1 else 0) +
      (if a = d then 1 else 0) * (if b = e then 1 else 0) + (if a = e then 1 else 0) * (if b = d then 1 else 0)) * G a b =
      cs ^ 2 * (if d = e then 1 else 0) * (if a = b then G a b else 0) + cs ^ 2 * (if a = d then (if b = e then G a b else 0) else 0) +
        cs ^ 2 * (if a = e then (if b = d then G a b else 0) else 0) := by
      intro a b
      split_ifs <;> ring
    simp only [e1, Finset.sum_add_distrib, ← Finset.mul_sum]
    have s1 : ∑ a, ∑ b, (if a = b then G a b else 0) = 0 := by simp [hG]
    rw [s1]
    have s2 : ∀ d e, ∑ a, ∑ b, (if a = d then (if b = e then G a b else 0) else 0) = G d e := by
      intro d e
      rw [Finset.sum_eq_single d]
      · simp
      · intro a _ h; simp [h]
      · simp
    rw [s2, s2]
    ring
  rw [h2]
  by_cases ho : omega = 0
  · simp [ho]
  · field_simp

theorem sum_linearEq (iso : Isotropic5 c w cs) (rho : K) (u : Fin D → K) : ∑ q, linearEq c w cs rho u q = rho := by
  have : ∑ q, linearEq c w cs rho u q = rho * ∑ q, w q + rho / cs * ∑ a, (∑ q, w q * c q a) * u a := by
    simp only [linearEq, mul_add, mul_one, Finset.sum_add_distrib, Finset.mul_sum, Finset.sum_mul, Finset.sum_div]
    congr 1
    · exact Finset.sum_congr rfl fun q _ => mul_comm _ _
    · rw [Finset.sum_comm]
      refine Finset.sum_congr rfl fun a _ => Finset.sum_congr rfl fun q _ => by ring
  rw [this, iso.m0]
  simp [iso.m1]

theorem sum_linearEq_c (iso : Isotropic5 c w cs) (hcs : cs ≠ 0) (rho : K) (u : Fin D → K) (d : Fin D) :
    ∑ q, linearEq c w cs rho u q * c q d = rho * u d := by
  have : ∑ q, linearEq c w cs rho u q * c q d = rho * ∑ q, w q * c q d + rho / cs * ∑ a, (∑ q, w q * c q a * c q d) * u a := by
    simp only [linearEq, mul_add, add_mul, mul_one, Finset.sum_add_distrib, Finset.mul_sum, Finset.sum_mul, Finset.sum_div]
    congr 1
    · exact Finset.sum_congr rfl fun q _ => by ring
    · rw [Finset.sum_comm]
      refine Finset.sum_congr rfl fun a _ => Finset.sum_congr rfl fun q _ => by ring
  rw [this, iso.m1]
  simp only [iso.m2, Spec.δ]
  simp
  field_simp

/-- density and velocity of the flow -/
theorem flow_macro (iso : Isotropic5 c w cs) (hcs : cs ≠ 0) (omega rho : K) (hrho : rho ≠ 0) {G : Fin D → Fin D → K}
    (hG : ∑ a, G a a = 0) (x : Vec D) :
    ∑ q, flow c w cs omega rho G x q = rho ∧
      (fun a => (∑ q, flow c w cs omega rho G x q * c q a) / ∑ q, flow c w cs omega rho G x q) = linearVelocity G x := by
  have h0 : ∑ q, flow c w cs omega rho G x q = rho := by
    simp only [flow, Finset.sum_add_distrib]
    rw [sum_linearEq iso, sum_deviation iso _ _ hG, add_zero]
  refine ⟨h0, ?_⟩
  funext a
  rw [h0]
  simp only [flow, add_mul, Finset.sum_add_distrib]
  rw [sum_linearEq_c iso hcs, sum_deviation_c iso, add_zero]
  field_simp

theorem collide_flow (iso : Isotropic5 c w cs) (hcs : cs ≠ 0) (omega rho : K) (hrho : rho ≠ 0) {G : Fin D → Fin D → K}
    (hG : ∑ a, G a a = 0) (R : (Fin Q → K) →ₗ[K] (Fin Q → K))
    (hR : R (deviation c w cs omega rho G) = omega • deviation c w cs omega rho G) (x : Vec D) (q : Fin Q) :
    collide c w cs R (flow c w cs omega rho G x) q =
      linearEq c w cs rho (linearVelocity G x) q + (1 - omega) * deviation c w cs omega rho G q := by
  obtain ⟨h0, h1⟩ := flow_macro iso hcs omega rho hrho hG x
  have e : flow c w cs omega rho G x - linearEq c w cs rho (linearVelocity G x) = deviation c w cs omega rho G := by
    funext q
    simp [flow]
  unfold collide
  rw [h1, h0, e, hR]
  simp only [flow, Pi.sub_apply, Pi.smul_apply, smul_eq_mul]
  ring

/-- the flow is a steady state: streaming the populations after the collision gives the populations again -/
theorem C101_flow_is_steady {S : Stencil D} {w : Fin S.Q → K} (iso : Isotropic5 (fun q a => (S.c q a : K)) w cs) (hcs : cs ≠ 0)
    {omega rho : K} (ho : omega ≠ 0) (hrho : rho ≠ 0) {G : Fin D → Fin D → K} (hG : ∑ a, G a a = 0)
    (R : (Fin S.Q → K) →ₗ[K] (Fin S.Q → K))
    (hR : R (deviation (fun q a => (S.c q a : K)) w cs omega rho G) = omega • deviation (fun q a => (S.c q a : K)) w cs omega rho G)
    (x : Vec D) (q : Fin S.Q) :
    collide (fun q a => (S.c q a : K)) w cs R (flow (fun q a => (S.c q a : K)) w cs omega rho G (x - S.c q)) q =
      flow (fun q a => (S.c q a : K)) w cs omega rho G x q := by
  rw [collide_flow iso hcs omega rho hrho hG R hR]
  have hlin : ∀ a, linearVelocity G (x - S.c q) a = linearVelocity G x a - ∑ b, G a b * (S.c q b : K) := fun a => by
    simp only [linearVelocity, Pi.sub_apply, Int.cast_sub, mul_sub, Finset.sum_sub_distrib]
  have hsum : ∑ a, (S.c q a : K) * linearVelocity G (x - S.c q) a =
      ∑ a, (S.c q a : K) * linearVelocity G x a - ∑ a, ∑ b, (S.c q a : K) * (S.c q b : K) * G a b := by
    simp only [hlin, mul_sub, Finset.sum_sub_distrib, Finset.mul_sum]
    congr 1
    exact Finset.sum_congr rfl fun a _ => Finset.sum_congr rfl fun b _ => by ring
  simp only [flow, linearEq, deviation, hsum]
  generalize ∑ a, ∑ b, (S.c q a : K) * (S.c q b : K) * G a b = T
  generalize ∑ a, (S.c q a : K) * linearVelocity G x a = U
  field_simp
  ring

/-- C101: in this flow, the strain rate of populations before the collision, at their density and velocity, is the symmetric part of the
velocity gradient, times `3 c_s²`: right for `c_s² = 1/3`. From populations after the collision, it is `1 - ω` times this. -/
theorem C101_strain_rate [CharZero K] (iso : Isotropic5 c w cs) (hcs : cs ≠ 0) {omega rho : K} (ho : omega ≠ 0) (hrho : rho ≠ 0)
    {G : Fin D → Fin D → K} (hG : ∑ a, G a a = 0) (R : (Fin Q → K) →ₗ[K] (Fin Q → K))
    (hR : R (deviation c w cs omega rho G) = omega • deviation c w cs omega rho G) (x : Vec D) (i j : Fin D) :
    strainRate c omega rho (linearEq c w cs rho (linearVelocity G x)) (flow c w cs omega rho G x) i j =
      3 * cs * ((G i j + G j i) / 2) ∧
    strainRate c omega rho (linearEq c w cs rho (linearVelocity G x)) (collide c w cs R (flow c w cs omega rho G x)) i j =
      (1 - omega) * (3 * cs * ((G i j + G j i) / 2)) := by
  have h2 := second_deviation iso omega rho hG hcs i j
  have e1 : (fun q => flow c w cs omega rho G x q - linearEq c w cs rho (linearVelocity G x) q) = deviation c w cs omega rho G := by
    funext q
    simp [flow]
  have e2 : secondMoments c (fun q => collide c w cs R (flow c w cs omega rho G x) q -
      linearEq c w cs rho (linearVelocity G x) q) i j = (1 - omega) * secondMoments c (deviation c w cs omega rho G) i j := by
    unfold secondMoments
    rw [Finset.mul_sum]
    refine Finset.sum_congr rfl fun q _ => ?_
    simp only [collide_flow iso hcs omega rho hrho hG R hR]
    ring
  unfold strainRate
  rw [e1, e2, h2]
  constructor <;> field_simp

/-- C101, from the array: after any step of pull or push over the whole lattice in this flow, the getter with `use_pre_collision_pdfs`
gives the strain rate in every cell; with the default arguments it gives `1 - ω` times the strain rate: the disagreement. -/
theorem C101_from_array [CharZero K] {S : Stencil D} {p : String} (hs : Supported S p) (hp : isInplace p = some false) (t : ℕ)
    {w : Fin S.Q → K} (iso : Isotropic5 (fun q a => (S.c q a : K)) w (1 / 3)) {omega rho : K} (ho : omega ≠ 0) (hrho : rho ≠ 0)
    {G : Fin D → Fin D → K} (hG : ∑ a, G a a = 0) (R : (Fin S.Q → K) →ₗ[K] (Fin S.Q → K))
    (hR : R (deviation (fun q a => (S.c q a : K)) w (1 / 3) omega rho G) =
      omega • deviation (fun q a => (S.c q a : K)) w (1 / 3) omega rho G)
    (arr : Vec D × Fin S.Q → K)
    (harr : writtenPops (.id _) S p t arr = some fun x => collide (fun q a => (S.c q a : K)) w (1 / 3) R
      (flow (fun q a => (S.c q a : K)) w (1 / 3) omega rho G x)) (x : Vec D) :
    ∃ ts pre post, stepTimestep p t = some ts ∧ fieldAccesses S true p ts true = .ok (some pre) ∧
      fieldAccesses S true p ts false = .ok (some post) ∧ ∀ i j,
      strainRate (fun q a => (S.c q a : K)) omega rho (linearEq (fun q a => (S.c q a : K)) w (1 / 3) rho (linearVelocity G x))
        (pops pre arr x) i j = (G i j + G j i) / 2 ∧
      strainRate (fun q a => (S.c q a : K)) omega rho (linearEq (fun q a => (S.c q a : K)) w (1 / 3) rho (linearVelocity G x))
        (pops post arr x) i j = (1 - omega) * ((G i j + G j i) / 2) := by
  obtain ⟨ts, pre, h1, h2, h3, -⟩ := C101_pre_two_arrays (K := K) hs hp t
  obtain ⟨ts', a, rd, wr, rd', g1, F, hr, hw, hr'⟩ := runFacts (G := Vec D) (V := K) hs t
  obtain rfl : ts' = ts := by rw [g1] at h1; exact Option.some.inj h1
  have hcs : (1 / 3 : K) ≠ 0 := by norm_num
  have hpost : pops wr arr = fun x => collide (fun q a => (S.c q a : K)) w (1 / 3) R
      (flow (fun q a => (S.c q a : K)) w (1 / 3) omega rho G x) := by
    have := hw arr (.id _)
    rw [harr] at this
    exact (Option.some.inj this).symm
  have hpre : pops pre arr = flow (fun q a => (S.c q a : K)) w (1 / 3) omega rho G := by
    have e := h3 arr
    rw [hr' arr] at e
    rw [← Option.some.inj e]
    funext y q
    rw [← C101_flow_is_steady iso hcs ho hrho hG R hR, ← congrFun (congrFun hpost _) q]
    unfold pops
    rw [loc_wr _ F]
    simp
  refine ⟨ts', pre, wr, g1, h2, by simp [fieldAccesses, F.acc, F.write], fun i j => ?_⟩
  obtain ⟨r1, r2⟩ := C101_strain_rate iso hcs ho hrho hG R hR x i j
  rw [hpre, hpost]
  refine ⟨r1.trans ?_, r2.trans ?_⟩ <;> ring

/-- a single relaxation rate meets the hypothesis on the collision -/
theorem srt_relaxes (omega : K) (f : Fin Q → K) : (omega • LinearMap.id : (Fin Q → K) →ₗ[K] (Fin Q → K)) f = omega • f := rfl

/-- C101, a disagreement: the assignments do not define density and velocity; the result for the same populations depends on the values of
these symbols. -/
theorem C101_undefined_symbols [CharZero K] (iso : Isotropic5 c w cs) (hcs : cs ≠ 0) {omega rho rho' : K} (ho : omega ≠ 0)
    (hrho : rho ≠ 0) (hne : rho' ≠ rho) (u : Fin D → K) (i : Fin D) :
    strainRate c omega rho (linearEq c w cs rho' u) (linearEq c w cs rho u) i i ≠
      strainRate c omega rho (linearEq c w cs rho u) (linearEq c w cs rho u) i i := by
  have h : ∀ r, secondMoments c (linearEq c w cs r u) i i = r * cs := by
    intro r
    have : secondMoments c (linearEq c w cs r u) i i =
        r * ∑ q, w q * c q i * c q i + r / cs * ∑ a, (∑ q, w q * c q i * c q i * c q a) * u a := by
      simp only [secondMoments, linearEq, mul_add, mul_one, Finset.sum_add_distrib, Finset.mul_sum, Finset.sum_mul, Finset.sum_div]
      congr 1
      · exact Finset.sum_congr rfl fun q _ => by ring
      · rw [Finset.sum_comm]
        refine Finset.sum_congr rfl fun a _ => Finset.sum_congr rfl fun q _ => by ring
    rw [this, iso.m2]
    simp [iso.m3, Spec.δ]
  have hsub : ∀ r r', secondMoments c (fun q => linearEq c w cs r u q - linearEq c w cs r' u q) i i = (r - r') * cs := by
    intro r r'
    rw [sub_mul, ← h r, ← h r']
    simp only [secondMoments, mul_sub, Finset.sum_sub_distrib]
  unfold strainRate
  rw [hsub, hsub]
  simp only [sub_self, zero_mul, mul_zero]
  have h3 : (3 / 2 : K) ≠ 0 := by norm_num
  exact mul_ne_zero (mul_ne_zero (neg_ne_zero.2 h3) (div_ne_zero ho hrho)) (mul_ne_zero (sub_ne_zero.2 hne.symm) hcs)

end

/-- the linear equilibrium is the one of the code with `equilibrium_order=1`, compressible, on every predefined stencil with weights -/
theorem linearEq_is_order_one [Field K] [CharZero K] : ∀ e ∈ Tables.predefined, ∀ ws, getWeights e.2.2 = some ws →
    ∀ (rho : K) (u : Fin (e.2.2.headD []).length → K), ∃ l, discreteMaxwellian e.2.2 (List.ofFn u) rho 1 (1 / 3) true = some l ∧
      ∀ q : Fin e.2.2.length, l.getD q 0 = linearEq (vel e.2.2 _) (weightVec e.2.2 ws) (1 / 3) rho u q := by
  intro e he ws hws rho u
  obtain ⟨hl, -, -⟩ := C20_weights_isotropic (K := K) e he ws hws
  obtain ⟨l, h1, -, h2⟩ := discreteMaxwellian_getD e.2.2 (predefined_rectangular e he) u rho 1 true ws hl hws
  refine ⟨l, h1, fun q => (h2 q).trans ?_⟩
  simp only [eqPoly, linearEq, rhoOut, rhoIn, g2, g3, dot, if_true, le_refl, Nat.one_le_ofNat]
  ring

/-! ### Examples -/

/-- shear flow on D2Q9 with a single relaxation rate: `∂u_x/∂y = 1/10`; the strain rate is 1/20, and with `ω = 3/2` the default
arguments give -1/40 -/
example : ∃ w : Fin exStencil.Q → ℚ, Isotropic5 (fun q a => (exStencil.c q a : ℚ)) w (1 / 3) ∧ Supported exStencil "pull" ∧
    isInplace "pull" = some false ∧ ∀ x,
    strainRate (fun q a => (exStencil.c q a : ℚ)) (3 / 2) 1
      (linearEq (fun q a => (exStencil.c q a : ℚ)) w (1 / 3) 1 (linearVelocity (fun a b => if a = 0 ∧ b = 1 then 1 / 10 else 0) x))
      (flow (fun q a => (exStencil.c q a : ℚ)) w (1 / 3) (3 / 2) 1 (fun a b => if a = 0 ∧ b = 1 then 1 / 10 else 0) x) 0 1 = 1 / 20 ∧
    strainRate (fun q a => (exStencil.c q a : ℚ)) (3 / 2) 1
      (linearEq (fun q a => (exStencil.c q a : ℚ)) w (1 / 3) 1 (linearVelocity (fun a b => if a = 0 ∧ b = 1 then 1 / 10 else 0) x))
      (collide (fun q a => (exStencil.c q a : ℚ)) w (1 / 3) ((3 / 2 : ℚ) • LinearMap.id)
        (flow (fun q a => (exStencil.c q a : ℚ)) w (1 / 3) (3 / 2) 1 (fun a b => if a = 0 ∧ b = 1 then 1 / 10 else 0) x)) 0 1 = -1 / 40 := by
  have iso : Isotropic5 (fun q a => (exStencil.c q a : ℚ)) (fun q => [4/9, 1/9, 1/9, 1/9, 1/9, 1/36, 1/36, 1/36, 1/36].getD q.val 0) (1 / 3) :=
    { m0 := by decide +kernel, m1 := by decide +kernel, m2 := by decide +kernel, m3 := by decide +kernel, m4 := by decide +kernel,
      m5 := by decide +kernel }
  refine ⟨_, iso, by decide +kernel, rfl, fun x => ?_⟩
  obtain ⟨h1, h2⟩ := C101_strain_rate iso (by norm_num) (omega := 3 / 2) (rho := 1) (by norm_num) (by norm_num)
    (G := fun a b => if a = 0 ∧ b = 1 then 1 / 10 else 0) (by simp [Fin.sum_univ_two]) _ (srt_relaxes _ _) x 0 1
  exact ⟨h1.trans (by norm_num), h2.trans (by norm_num)⟩

/-- the in-place patterns: the hypotheses are met -/
example : Supported exStencil "aa" ∧ Supported exStencil "esopull" ∧ isInplace "aa" = some true ∧ isInplace "esopull" = some true :=
  ⟨by decide +kernel, by decide +kernel, rfl, rfl⟩

end StrainRate
end Lbm
