/-
C27: partially saturated cells balance mass and momentum with the particles.
-/
import Verif.Psm
import Verif.Props.HydroMethods
import Verif.StreamingLemmas

set_option linter.unusedSectionVars false

namespace Lbm

open Spec (vel)

variable {K : Type} [Field K] [DecidableEq K] {D : ℕ}

theorem exc_mapM_ok {α β : Type} {g : α → Except PyErr β} {l : List α} {r : List β} (h : l.mapM g = .ok r) :
    List.Forall₂ (fun a b => g a = .ok b) l r := by
  induction l generalizing r with
  | nil => cases h; exact .nil
  | cons a l ih =>
    rw [List.mapM_cons] at h
    cases ha : g a with
    | error e => rw [ha] at h; cases h
    | ok b =>
      cases hl : l.mapM g with
      | error e => rw [ha, hl] at h; cases h
      | ok r' => rw [ha, hl] at h; cases h; exact .cons ha (ih hl)

theorem exc_mapM_of {α β : Type} {g : α → Except PyErr β} {l : List α} (h : ∀ a ∈ l, ∃ b, g a = .ok b) :
    ∃ r, l.mapM g = .ok r := by
  induction l with
  | nil => exact ⟨[], rfl⟩
  | cons a l ih =>
    obtain ⟨b, hb⟩ := h a List.mem_cons_self
    obtain ⟨r, hr⟩ := ih fun x hx => h x (List.mem_cons_of_mem _ hx)
    exact ⟨b :: r, by rw [List.mapM_cons, hb, hr]; rfl⟩

theorem foldl_sub_sum {α : Type} (g : α → K) (l : List α) (z : K) :
    l.foldl (fun F q => F - g q) z = z - (l.map g).sum := by
  induction l generalizing z with
  | nil => simp
  | cons a l ih => rw [List.foldl_cons, ih, List.map_cons, List.sum_cons]; ring

theorem foldl_add_sum {α : Type} (g : α → K) (l : List α) (z : K) :
    l.foldl (fun F q => F + g q) z = z + (l.map g).sum := by
  induction l generalizing z with
  | nil => simp
  | cons a l ih => rw [List.foldl_cons, ih, List.map_cons, List.sum_cons]; ring

/-- the terms of one particle and the force on it -/
theorem particleCollision_ok {S : Stencil D} {sc : ℤ} {eps rate0 : K} {f eqF eqS : Fin S.Q → K}
    {t : Fin S.Q → K} {F : Fin D → K} (h : particleCollision S sc eps rate0 f eqF eqS = .ok (t, F)) :
    (∀ q, solidCollision S sc eps rate0 f eqF eqS q = .ok (t q)) ∧ ∀ a, F a = -∑ q, t q * (S.c q a : K) := by
  unfold particleCollision at h
  cases hm : (List.finRange S.Q).mapM (solidCollision S sc eps rate0 f eqF eqS) with
  | error e => rw [hm] at h; cases h
  | ok terms =>
    rw [hm] at h
    cases h
    have hf := exc_mapM_ok hm
    have hl := hf.length_eq
    rw [List.length_finRange] at hl
    refine ⟨fun q => ?_, fun a => ?_⟩
    · have := hf.get (i := q) (by rw [List.length_finRange]; exact q.isLt) (by rw [← hl]; exact q.isLt)
      simp only [List.get_eq_getElem, List.getElem_finRange] at this
      show _ = Except.ok (terms.getD q 0)
      rw [List.getD_eq_getElem?_getD, List.getElem?_eq_getElem (by rw [← hl]; exact q.isLt), Option.getD_some]
      exact this
    · show (List.finRange S.Q).foldl (fun F (q : Fin S.Q) => F - terms.getD q 0 * (S.c q a : K)) 0 = _
      rw [foldl_sub_sum, zero_sub]
      congr 1

/-- C27: the force written for particle `p` is minus the momentum its terms add to the fluid; together: the change of momentum
of the fluid by the solid terms is minus the sum of the forces. Holds for every `SC`, all populations, equilibria and
fractions. -/
theorem C27_force_balance {S : Stencil D} {sc : ℤ} {rate0 : K} {f eqF base : Fin S.Q → K}
    {particles : List (K × (Fin S.Q → K))} {post : Fin S.Q → K} {forces : List (Fin D → K)}
    (h : addPsm S sc rate0 f eqF base particles = .ok (post, forces)) :
    forces.length = particles.length ∧
    ∀ a, ∑ q, post q * (S.c q a : K) + (forces.map fun F => F a).sum = ∑ q, base q * (S.c q a : K) := by
  unfold addPsm at h
  cases hm : particles.mapM fun p => particleCollision S sc p.1 rate0 f eqF p.2 with
  | error e => rw [hm] at h; cases h
  | ok parts =>
    rw [hm] at h
    cases h
    have hf := exc_mapM_ok hm
    refine ⟨by rw [List.length_map, hf.length_eq], fun a => ?_⟩
    simp only [foldl_add_sum (fun t : (Fin S.Q → K) × (Fin D → K) => t.1 _), zero_add, add_mul, Finset.sum_add_distrib,
      add_assoc]
    rw [add_eq_left]
    clear hm
    induction hf with
    | nil => simp
    | cons hp _ ih =>
      rename_i p t ps ts _
      obtain ⟨h1, h2⟩ := particleCollision_ok (t := t.1) (F := t.2) hp
      simp only [List.map_cons, List.sum_cons, add_mul, Finset.sum_add_distrib, h2 a]
      linear_combination ih

/-- C27: the solid collision of one particle conserves mass if fluid and solid equilibrium have the mass of the cell, and the
force on the particle is given by the momenta of populations and equilibria. -/
theorem C27_particle {S : Stencil D} (hv : S.Valid) {sc : ℤ} {eps rate0 : K} {f eqF eqS : Fin S.Q → K}
    {t : Fin S.Q → K} {F : Fin D → K} (h : particleCollision S sc eps rate0 f eqF eqS = .ok (t, F))
    (hF : ∑ q, eqF q = ∑ q, f q) (hS : ∑ q, eqS q = ∑ q, f q) :
    ∑ q, t q = 0 ∧
    ∀ a, let j := fun g : Fin S.Q → K => ∑ q, g q * (S.c q a : K)
      F a = if sc = 1 then eps * (2 * j f - j eqF - j eqS)
            else if sc = 2 then eps * ((j f - j eqS) - (1 - rate0) * (j f - j eqF))
            else eps * (2 * (j f - j eqS)) := by
  obtain ⟨ht, hfo⟩ := particleCollision_ok h
  have hc : S.InvClosed := by
    intro i
    have := ht i
    unfold solidCollision at this
    split at this
    · cases this
    · rename_i j hj; exact ⟨j, (Stencil.index_eq_some hv).1 hj⟩
  obtain ⟨inv, hi, hci, hinv, -⟩ := exists_inv hv hc
  have re : ∀ g : Fin S.Q → K, ∑ q, g (inv q) = ∑ q, g q := fun g =>
    Equiv.sum_comp (Function.Involutive.toPerm inv hinv) g
  have rej : ∀ (g : Fin S.Q → K) (a : Fin D), ∑ q, g (inv q) * (S.c q a : K) = -∑ q, g q * (S.c q a : K) := by
    intro g a
    rw [← re fun q => g q * (S.c q a : K), ← Finset.sum_neg_distrib]
    exact Finset.sum_congr rfl fun q _ => by rw [hci]; simp
  have cases3 : ∀ q, t q = if sc = 1 then eps * ((f (inv q) - eqF (inv q)) - (f q - eqS q))
      else if sc = 2 then eps * ((eqS q - f q) + (1 - rate0) * (f q - eqF q))
      else eps * ((f (inv q) - eqS (inv q)) - (f q - eqS q)) := by
    intro q
    have := ht q
    unfold solidCollision at this
    rw [hi q] at this
    simp only [] at this
    split_ifs at this ⊢ <;> exact (Except.ok.inj this).symm
  refine ⟨?_, fun a => ?_⟩
  · simp only [cases3]
    split_ifs
    · rw [← Finset.mul_sum]
      simp only [Finset.sum_sub_distrib, re, hF, hS]; ring
    · rw [← Finset.mul_sum]
      simp only [Finset.sum_add_distrib, ← Finset.mul_sum, Finset.sum_sub_distrib, hF, hS]; ring
    · rw [← Finset.mul_sum]
      simp only [Finset.sum_sub_distrib, re f, re eqS, hS]; ring
  · simp only []
    rw [hfo a]
    simp only [cases3]
    split_ifs
    · simp only [mul_assoc eps, ← Finset.mul_sum, sub_mul, Finset.sum_sub_distrib, rej]; ring
    · simp only [mul_assoc eps, ← Finset.mul_sum, sub_mul, add_mul, Finset.sum_sub_distrib, Finset.sum_add_distrib,
        one_mul, mul_assoc rate0]
      ring
    · simp only [mul_assoc eps, ← Finset.mul_sum, sub_mul, Finset.sum_sub_distrib, rej]; ring

/-- the forces written are those of the particles, in order -/
theorem addPsm_forces {S : Stencil D} {sc : ℤ} {rate0 : K} {f eqF base : Fin S.Q → K}
    {particles : List (K × (Fin S.Q → K))} {post : Fin S.Q → K} {forces : List (Fin D → K)}
    (h : addPsm S sc rate0 f eqF base particles = .ok (post, forces)) :
    List.Forall₂ (fun p F => ∃ t, particleCollision S sc p.1 rate0 f eqF p.2 = .ok (t, F)) particles forces := by
  unfold addPsm at h
  cases hm : particles.mapM fun p => particleCollision S sc p.1 rate0 f eqF p.2 with
  | error e => rw [hm] at h; cases h
  | ok parts =>
    rw [hm] at h
    cases h
    have hf := exc_mapM_ok hm
    clear hm
    induction hf with
    | nil => exact .nil
    | cons hp _ ih => exact .cons ⟨_, hp⟩ ih

/-- C27: the solid terms of all particles together conserve the mass of the cell. -/
theorem C27_mass {S : Stencil D} (hv : S.Valid) {sc : ℤ} {rate0 : K} {f eqF base : Fin S.Q → K}
    {particles : List (K × (Fin S.Q → K))} {post : Fin S.Q → K} {forces : List (Fin D → K)}
    (h : addPsm S sc rate0 f eqF base particles = .ok (post, forces))
    (hF : ∑ q, eqF q = ∑ q, f q) (hS : ∀ p ∈ particles, ∑ q, p.2 q = ∑ q, f q) : ∑ q, post q = ∑ q, base q := by
  unfold addPsm at h
  cases hm : particles.mapM fun p => particleCollision S sc p.1 rate0 f eqF p.2 with
  | error e => rw [hm] at h; cases h
  | ok parts =>
    rw [hm] at h
    cases h
    have hf := exc_mapM_ok hm
    simp only [foldl_add_sum (fun t : (Fin S.Q → K) × (Fin D → K) => t.1 _), zero_add, Finset.sum_add_distrib]
    rw [add_eq_left]
    clear hm
    induction hf with
    | nil => simp
    | cons hp _ ih =>
      rename_i p t ps ts _
      have := (C27_particle hv (t := t.1) (F := t.2) hp hF (hS p List.mem_cons_self)).1
      simp only [List.map_cons, List.sum_cons, Finset.sum_add_distrib, this, zero_add]
      exact ih fun p hp => hS p (List.mem_cons_of_mem _ hp)

/-- C27: an unknown solid collision raises a `ValueError` -/
theorem C27_unknown_sc {S : Stencil D} {sc : ℤ} (h1 : sc ≠ 1) (h2 : sc ≠ 2) (h3 : sc ≠ 3) (hq : 0 < S.Q) (rate0 : K)
    (f eqF base : Fin S.Q → K) (p : K × (Fin S.Q → K)) (rest : List (K × (Fin S.Q → K))) :
    addPsm S sc rate0 f eqF base (p :: rest) = .error .valueError := by
  have hs : ∀ i, solidCollision S sc p.1 rate0 f eqF p.2 i = .error .valueError := by
    intro i
    unfold solidCollision
    split
    · rfl
    · rw [if_neg h1, if_neg h2, if_neg h3]
  have : particleCollision S sc p.1 rate0 f eqF p.2 = .error .valueError := by
    unfold particleCollision
    obtain ⟨n, hn⟩ : ∃ n, S.Q = n + 1 := ⟨S.Q - 1, by omega⟩
    have hl : ∃ i l, List.finRange S.Q = i :: l := by
      cases hl : List.finRange S.Q with
      | nil => have := List.length_finRange (n := S.Q); rw [hl] at this; simp at this; omega
      | cons i l => exact ⟨i, l, rfl⟩
    obtain ⟨i, l, hl⟩ := hl
    rw [hl, List.mapM_cons, hs]; rfl
  unfold addPsm
  rw [List.mapM_cons, this]; rfl

/-- C27: the three solid collisions are defined on every stencil that `LBStencil` accepts and that is closed under inversion -/
theorem C27_defined {S : Stencil D} (hv : S.Valid) (hc : S.InvClosed) {sc : ℤ} (hsc : sc = 1 ∨ sc = 2 ∨ sc = 3) (rate0 : K)
    (f eqF base : Fin S.Q → K) (particles : List (K × (Fin S.Q → K))) :
    ∃ r, addPsm S sc rate0 f eqF base particles = .ok r := by
  obtain ⟨inv, hi, -⟩ := exists_inv hv hc
  have h1 : ∀ p ∈ particles, ∃ r, particleCollision S sc p.1 rate0 f eqF p.2 = .ok r := by
    intro p _
    have : ∀ i ∈ List.finRange S.Q, ∃ r, solidCollision S sc p.1 rate0 f eqF p.2 i = .ok r := by
      intro i _
      unfold solidCollision
      rw [hi i]
      rcases hsc with rfl | rfl | rfl <;> exact ⟨_, rfl⟩
    obtain ⟨r, hr⟩ := exc_mapM_of this
    unfold particleCollision
    rw [hr]; exact ⟨_, rfl⟩
  obtain ⟨r, hr⟩ := exc_mapM_of h1
  unfold addPsm
  rw [hr]; exact ⟨_, rfl⟩

/-! ### Methods on the predefined stencils -/

section predefined
variable [CharZero K]

/-- equilibrium populations have the mass of the stored populations for the given density and the momentum of the given
velocity -/
theorem equilibriumAt_moments {P : Type} [DecidableEq P] {Q : ℕ} {m : MomentMethod K P Q} {h : m.relax.length = Q}
    {c : Fin Q → Fin D → K} {meqOf : Macro K D → P → K} {cq : Cqc K D} {i0 : Fin Q} {i : Fin D → Fin Q}
    (H : Hydrodynamic m h c meqOf cq i0 i) (hw : m.WellFormed) (x : Macro K D) (hx : x.deltaRho = x.rho - cq.rho0) :
    ∃ g, equilibriumAt m meqOf x = .ok g ∧ (∑ q, g q = if cq.zeroCentered then x.deltaRho else x.rho) ∧
      ∀ a, ∑ q, g q * c q a = cq.reference x.rho * x.u a := by
  let m' : MomentMethod K P Q := { m with meq := fun _ => meqOf x }
  have hw' : m'.WellFormed := hw
  obtain ⟨r, hr⟩ := (MomentMethod.C19_defined_iff m' (fun _ => 1) false).2 hw'
  refine ⟨r 0, ?_, ?_, fun a => ?_⟩
  · unfold equilibriumAt MomentMethod.getEquilibrium
    show Except.map _ (m'.collisionRule (fun _ => 1) false) = _
    rw [hr]; rfl
  · have key := MomentMethod.C19_moments m' _ false r hr h 0 i0
    have hf : m'.forceMoment h false 0 i0 = 0 := by
      simp [MomentMethod.forceMoment, MomentMethod.popForcing, MomentMethod.momentForcing]
    have hb : m'.bgMoment (m'.moment h i0) = _ := H.bg_mass hw
    have he : m'.meq 0 (m'.moment h i0) = _ := H.eqMass _ hx
    have hm : Spec.mom (m'.ev (m'.moment h i0)) (r 0) = _ := H.mass _
    rw [hf, hb, he, hm] at key
    have hd := H.delta
    rw [H.storage] at hd
    show ∑ q, r 0 q = _
    rcases hz : cq.zeroCentered <;> rcases hv : m.deviationOnly <;> simp [hz, hv] at key hd ⊢
    · linear_combination key
    · linear_combination key - hx
    · linear_combination key
  · have key := MomentMethod.C19_moments m' _ false r hr h 0 (i a)
    have hf : m'.forceMoment h false 0 (i a) = 0 := by
      simp [MomentMethod.forceMoment, MomentMethod.popForcing, MomentMethod.momentForcing]
    have hb : m'.bgMoment (m'.moment h (i a)) = _ := H.bg_mom a
    have he : m'.meq 0 (m'.moment h (i a)) = _ := H.eqMom _ a
    have hm : Spec.mom (m'.ev (m'.moment h (i a))) (r 0) = _ := H.momentum _ a
    rw [hf, hb, he, hm] at key
    linear_combination key

/-- without a force a collision with any rates conserves mass and momentum -/
theorem conserves_without_force {P : Type} [DecidableEq P] {Q : ℕ} {m : MomentMethod K P Q} {h : m.relax.length = Q}
    {c : Fin Q → Fin D → K} {meqOf : Macro K D → P → K} {cq : Cqc K D} {i0 : Fin Q} {i : Fin D → Fin Q}
    (H : Hydrodynamic m h c meqOf cq i0 i) (hcq : cq.force = none) (hF : m.force = none)
    (hmeq : ∀ f p, m.meq f p = meqOf (cq.equilibriumInput c f) p) (d : Fin Q → K) (r : (Fin Q → K) → Fin Q → K)
    (hr : m.collisionRule d true = .ok r) (f : Fin Q → K) (href : cq.reference (cq.equilibriumInput c f).rho ≠ 0) :
    ∑ q, r f q = ∑ q, f q ∧ ∀ a, ∑ q, r f q * c q a = ∑ q, f q * c q a := by
  have hw : m.WellFormed := (MomentMethod.C19_defined_iff m d true).1 ⟨r, hr⟩
  have hf : ∀ j, m.forceMoment h true f j = 0 := fun j => by
    simp [MomentMethod.forceMoment, MomentMethod.popForcing, MomentMethod.momentForcing, hF]
  constructor
  · have key := MomentMethod.C19_moments m d true r hr h f i0
    rw [hf, H.bg_mass hw, H.mass, H.mass, hmeq, H.eqMass] at key
    · have hd := H.delta
      rw [H.storage] at hd
      have e1 : (cq.equilibriumInput c f).rho = if cq.zeroCentered then cq.rho0 + ∑ q, f q else ∑ q, f q := rfl
      have e2 : (cq.equilibriumInput c f).deltaRho = if cq.zeroCentered then ∑ q, f q else
        (if cq.zeroCentered then cq.rho0 + ∑ q, f q else ∑ q, f q) - cq.rho0 := rfl
      rw [e1, e2] at key
      rcases hz : cq.zeroCentered <;> rcases hv : m.deviationOnly <;> simp [hz, hv] at key hd ⊢
      · exact key
      · linear_combination key
      · exact key
    · show (if cq.zeroCentered then ∑ q, f q else (if cq.zeroCentered then cq.rho0 + ∑ q, f q else ∑ q, f q) - cq.rho0) =
        (if cq.zeroCentered then cq.rho0 + ∑ q, f q else ∑ q, f q) - cq.rho0
      cases cq.zeroCentered <;> simp
  · intro a
    have key := MomentMethod.C19_moments m d true r hr h f (i a)
    rw [hf, H.bg_mom, H.momentum, H.momentum, hmeq, H.eqMom] at key
    have e3 : (cq.equilibriumInput c f).u a = (∑ q, f q * c q a) / cq.reference (cq.equilibriumInput c f).rho := by
      unfold Cqc.equilibriumInput; rw [hcq]
    rw [e3, mul_div_cancel₀ _ href] at key
    linear_combination key

/-- the predefined stencil as velocities -/
abbrev stencilOf (st : List (List ℤ)) : Stencil (st.headD []).length := ⟨st.length, fun q a => (st.get q).getD a 0⟩

theorem stencilOf_valid : ∀ e ∈ Tables.predefined, (stencilOf e.2.2).Valid ∧ (stencilOf e.2.2).InvClosed := by
  decide +kernel

/-- C27 for every method with the discrete Maxwellian on a predefined stencil without a force model: any particles with any
fractions and velocities, any fraction field value `B` of the cell. Mass is conserved, the momentum lost by the fluid is the
sum of the forces on the particles, and the force on a particle is `eps (j - ρ u_p)`, twice that for `SC = 3`. -/
theorem C27_predefined : ∀ e ∈ Tables.predefined, ∀ (o : MaxwellOptions K e.2.2) (cq : Cqc K (e.2.2.headD []).length),
    o.Valid cq → o.force = none → cq.force = none → ∀ (B rate0 : K) (f : Fin e.2.2.length → K),
    (cq.compressible = true → (cq.equilibriumInput (vel e.2.2 _) f).rho ≠ 0) →
    ∃ r, (o.method cq).getCollisionRule (some B) = .ok r ∧
    ∃ eqOf : (Fin (e.2.2.headD []).length → K) → Fin e.2.2.length → K,
      (∀ u, equilibriumAt (o.method cq) (o.meqOf cq.compressible)
        { cq.equilibriumInput (vel e.2.2 _) f with u := u } = .ok (eqOf u)) ∧
    ∀ (sc : ℤ), sc = 1 ∨ sc = 2 ∨ sc = 3 → ∀ particles : List (K × (Fin (e.2.2.headD []).length → K)),
    ∃ post, addPsm (stencilOf e.2.2) sc rate0 f (eqOf (cq.equilibriumInput (vel e.2.2 _) f).u) (r f)
        (particles.map fun p => (p.1, eqOf p.2)) =
      .ok (post, particles.map fun p a => (if sc = 3 then 2 else 1) * p.1 * (∑ q, f q * vel e.2.2 _ q a -
        cq.reference (cq.equilibriumInput (vel e.2.2 _) f).rho * p.2 a)) ∧
      ∑ q, post q = ∑ q, f q ∧
      ∀ a, ∑ q, post q * vel e.2.2 _ q a + (particles.map fun p => (if sc = 3 then 2 else 1) * p.1 *
        (∑ q, f q * vel e.2.2 _ q a - cq.reference (cq.equilibriumInput (vel e.2.2 _) f).rho * p.2 a)).sum =
        ∑ q, f q * vel e.2.2 _ q a := by
  intro e he o cq hv hof hcf B rate0 f hrho
  obtain ⟨hsv, hsc⟩ := stencilOf_valid e he
  have hw := o.wellFormed he cq hv
  obtain ⟨i0, i, H, -⟩ := o.hydrodynamic he cq hv hw.1.1
  have href : cq.reference (cq.equilibriumInput (vel e.2.2 _) f).rho ≠ 0 := by
    unfold Cqc.reference
    rcases hc : cq.compressible
    · simp [hv.rho0]
    · simpa using hrho hc
  obtain ⟨r, hr⟩ := (MomentMethod.C19_defined_iff (o.method cq) ((o.method cq).effectiveRates (some B)) true).2 hw
  obtain ⟨hm0, hm1⟩ := conserves_without_force H hcf hof (fun _ _ => rfl) _ r hr f href
  have hdr : (cq.equilibriumInput (vel e.2.2 _) f).deltaRho = (cq.equilibriumInput (vel e.2.2 _) f).rho - cq.rho0 := by
    show (if cq.zeroCentered then ∑ q, f q else (if cq.zeroCentered then cq.rho0 + ∑ q, f q else ∑ q, f q) - cq.rho0) =
        (if cq.zeroCentered then cq.rho0 + ∑ q, f q else ∑ q, f q) - cq.rho0
    cases cq.zeroCentered <;> simp
  choose eqOf heq hmass hmom using fun u =>
    equilibriumAt_moments H hw { cq.equilibriumInput (vel e.2.2 _) f with u := u } hdr
  have hmass' : ∀ u, ∑ q, eqOf u q = ∑ q, f q := fun u => by
    rw [hmass u]
    show (if cq.zeroCentered then (if cq.zeroCentered then ∑ q, f q else
      (if cq.zeroCentered then cq.rho0 + ∑ q, f q else ∑ q, f q) - cq.rho0) else
      if cq.zeroCentered then cq.rho0 + ∑ q, f q else ∑ q, f q) = _
    cases cq.zeroCentered <;> simp
  have hjF : ∀ a : Fin (e.2.2.headD []).length, ∑ q, eqOf (cq.equilibriumInput (vel e.2.2 _) f).u q * vel e.2.2 _ q a = ∑ q, f q * vel e.2.2 _ q a := by
    intro a
    rw [hmom]
    have e3 : (cq.equilibriumInput (vel e.2.2 _) f).u a =
        (∑ q, f q * vel e.2.2 _ q a) / cq.reference (cq.equilibriumInput (vel e.2.2 _) f).rho := by
      unfold Cqc.equilibriumInput; rw [hcf]
    show cq.reference (cq.equilibriumInput (vel e.2.2 _) f).rho * (cq.equilibriumInput (vel e.2.2 _) f).u a = _
    rw [e3, mul_div_cancel₀ _ href]
  refine ⟨r, hr, eqOf, heq, fun sc hsc3 particles => ?_⟩
  obtain ⟨⟨post, forces⟩, hp⟩ := C27_defined hsv hsc hsc3 rate0 f (eqOf (cq.equilibriumInput (vel e.2.2 _) f).u) (r f)
    (particles.map fun p => (p.1, eqOf p.2))
  have hforces : forces = particles.map fun p a => (if sc = 3 then 2 else 1) * p.1 * (∑ q, f q * vel e.2.2 _ q a -
        cq.reference (cq.equilibriumInput (vel e.2.2 _) f).rho * p.2 a) := by
    have hf2 := addPsm_forces hp
    rw [List.forall₂_map_left_iff] at hf2
    clear hp
    induction hf2 with
    | nil => rfl
    | cons hp _ ih =>
      rename_i p F ps Fs _
      obtain ⟨t, hp⟩ := hp
      rw [List.map_cons, ih]
      congr 1
      funext a
      have := (C27_particle hsv hp (hmass' _) (hmass' _)).2 a
      rw [this]
      have hjs : ∑ q, eqOf p.2 q * (((stencilOf e.2.2).c q a : ℤ) : K) =
        cq.reference (cq.equilibriumInput (vel e.2.2 _) f).rho * p.2 a := hmom p.2 a
      have hjF' : ∑ q, eqOf (cq.equilibriumInput (vel e.2.2 _) f).u q * (((stencilOf e.2.2).c q a : ℤ) : K) =
        ∑ q, f q * vel e.2.2 _ q a := hjF a
      have hjf' : ∑ q, f q * (((stencilOf e.2.2).c q a : ℤ) : K) = ∑ q, f q * vel e.2.2 _ q a := rfl
      simp only [hjs, hjF', hjf']
      rcases hsc3 with rfl | rfl | rfl
      · rw [if_pos rfl, if_neg (by decide)]; ring
      · rw [if_neg (by decide), if_pos rfl, if_neg (by decide)]; ring
      · rw [if_neg (by decide), if_neg (by decide), if_pos rfl]; ring
  have hb := (C27_force_balance hp).2
  have hmm := C27_mass hsv hp (hmass' _) (fun p hp => by
    obtain ⟨p', -, rfl⟩ := List.mem_map.1 hp
    exact hmass' _)
  refine ⟨post, by rw [hp, hforces], hmm.trans hm0, fun a => ?_⟩
  have := hb a
  rw [hforces, List.map_map] at this
  exact this.trans (hm1 a)

end predefined

/-- D2Q9 with one particle of fraction 1/2 at rest in moving fluid -/
example : ∃ r, (ForceExample.o.method { ForceExample.cq with force := none }).getCollisionRule (some (1 / 2)) = .ok r :=
  have he : ("D2Q9", "uk", ForceExample.st) ∈ Tables.predefined := by decide +kernel
  let ⟨r, hr, _⟩ := C27_predefined _ he ForceExample.o { ForceExample.cq with force := none }
    ⟨ForceExample.valid.offered, ForceExample.valid.weights, rfl, fun _ => rfl, fun _ h => absurd h (by decide),
      .inl (by decide)⟩ rfl rfl (1 / 2) (3 / 2) (fun q => if q.val = 1 then 1 / 10 else 0)
    (fun _ => by
      have : (1 : ℚ) + ∑ q : Fin ForceExample.st.length, (if q.val = 1 then 1 / 10 else 0) ≠ 0 := by decide +kernel
      exact this)
  ⟨r, hr⟩

end Lbm
