/-
C104: initial data of the extrapolation outflow.
-/
import Verif.OutflowInit
import Verif.Props.BoundaryFormulas
import Verif.Props.HydroMethods

set_option linter.unusedSectionVars false

namespace Lbm

variable {D : ℕ} {G : Type} [AddCommGroup G] [DecidableEq G]

/-! ### Values taken from the flow field -/

section field
variable {K : Type} {S : Stencil D}

/-- C104. Without initial density and velocity, in every streaming pattern: if the array holds the populations written in
step `t` and the outflow is told the time step of step `t`, both recorded values of a link are the population of the cell
next to the boundary that moves away from the boundary along the link. -/
theorem C104_from_field (φ : Vec D →+ G) {p : String} (hs : Supported S p) (hc : S.InvClosed) (t : ℕ) (n : Vec D)
    (f : G × Fin S.Q → K) (links : List (G × Fin S.Q)) :
    ∃ ts w es, stepTimestep p t = some ts ∧ writtenPops φ S p t f = some w ∧
      outflowInit φ S p ts n none f links = .ok es ∧ es.map Prod.fst = links ∧
      ∀ y j d j', ((y, j), d) ∈ es → S.c j' = -S.c j →
        d.pdf = w (y + φ (S.c j - n)) j' ∧ d.nd = w (y + φ (S.c j - n)) j' := by
  obtain ⟨inv, hidx0, hcinv, -, -⟩ := exists_inv hs.2.1 hc
  have hidx : ∀ i, Indexing.inverseDirIndex S i = some (inv i) := fun i => hidx0 i
  obtain ⟨ts, a, rd, wr, rd', e1, F, -, hw, -⟩ := runFacts (G := G) (V := K) hs t
  refine ⟨ts, _, links.map fun l => (l, ⟨f (loc φ (l.1 + φ (S.c l.2 - n)) (wr (inv l.2))),
    f (loc φ (l.1 + φ (S.c l.2 - n)) (wr (inv l.2)))⟩), e1, hw f φ, ?_, ?_, ?_⟩
  · simp only [outflowInit, F.acc, F.write, Option.bind_some]
    induction links with
    | nil => rfl
    | cons l ls ih =>
      obtain ⟨y, j⟩ := l
      simp only [outflowInitLoop, hidx, ih, List.map_cons]
      rfl
  · rw [List.map_map]; exact (List.map_congr_left fun _ _ => rfl).trans (List.map_id _)
  · intro y j d j' hmem hj
    obtain ⟨l, hl, heq⟩ := List.mem_map.1 hmem
    obtain ⟨rfl, rfl⟩ : l = (y, j) ∧ _ = d := ⟨(Prod.ext_iff.1 heq).1, (Prod.ext_iff.1 heq).2⟩
    obtain rfl : inv j = j' := hs.2.1 (by rw [hcinv, hj])
    exact ⟨rfl, rfl⟩

/-- C104. The recorded values do not depend on each other or on the order of the links: with any initial equilibrium the
first value of every link is the population of the domain cell, the second one the equilibrium population of the boundary
cell for the direction into the domain. -/
theorem C104_with_equilibrium (φ : Vec D →+ G) {p : String} (hs : Supported S p) (hc : S.InvClosed) (t : ℕ) (n : Vec D)
    (f : G × Fin S.Q → K) (links : List (G × Fin S.Q)) (e : G → Except PyErr (Fin S.Q → K)) (g : G → Fin S.Q → K)
    (he : ∀ l ∈ links, e (l.1 + φ (S.c l.2)) = .ok (g (l.1 + φ (S.c l.2)))) :
    ∃ ts w es, stepTimestep p t = some ts ∧ writtenPops φ S p t f = some w ∧
      outflowInit φ S p ts n (some e) f links = .ok es ∧ es.map Prod.fst = links ∧
      ∀ y j d j', ((y, j), d) ∈ es → S.c j' = -S.c j →
        d.pdf = w (y + φ (S.c j - n)) j' ∧ d.nd = g (y + φ (S.c j)) j' := by
  obtain ⟨inv, hidx0, hcinv, -, -⟩ := exists_inv hs.2.1 hc
  have hidx : ∀ i, Indexing.inverseDirIndex S i = some (inv i) := fun i => hidx0 i
  obtain ⟨ts, a, rd, wr, rd', e1, F, -, hw, -⟩ := runFacts (G := G) (V := K) hs t
  refine ⟨ts, _, links.map fun l => (l, ⟨f (loc φ (l.1 + φ (S.c l.2 - n)) (wr (inv l.2))),
    g (l.1 + φ (S.c l.2)) (inv l.2)⟩), e1, hw f φ, ?_, ?_, ?_⟩
  · simp only [outflowInit, F.acc, F.write, Option.bind_some]
    induction links with
    | nil => rfl
    | cons l ls ih =>
      obtain ⟨y, j⟩ := l
      have h1 := he (y, j) List.mem_cons_self
      simp only at h1
      simp only [outflowInitLoop, hidx, h1, ih (fun l hl => he l (List.mem_cons_of_mem _ hl)), List.map_cons]
      rfl
  · rw [List.map_map]; exact (List.map_congr_left fun _ _ => rfl).trans (List.map_id _)
  · intro y j d j' hmem hj
    obtain ⟨l, hl, heq⟩ := List.mem_map.1 hmem
    obtain ⟨rfl, rfl⟩ : l = (y, j) ∧ _ = d := ⟨(Prod.ext_iff.1 heq).1, (Prod.ext_iff.1 heq).2⟩
    obtain rfl : inv j = j' := hs.2.1 (by rw [hcinv, hj])
    exact ⟨rfl, rfl⟩

/-- C104. If the initialisation of a single boundary cell fails, the whole initialisation fails. -/
theorem C104_failure (φ : Vec D →+ G) (p : String) (ts : Timestep) (n : Vec D) (f : G × Fin S.Q → K)
    (links : List (G × Fin S.Q)) (e : G → Except PyErr (Fin S.Q → K)) {l : G × Fin S.Q} (hl : l ∈ links) {err : PyErr}
    (he : e (l.1 + φ (S.c l.2)) = .error err) : ∃ err', outflowInit φ S p ts n (some e) f links = .error err' := by
  unfold outflowInit
  split
  · rename_i wr _
    induction links with
    | nil => cases hl
    | cons l' ls ih =>
      obtain ⟨y, j⟩ := l'
      unfold outflowInitLoop
      rcases Indexing.inverseDirIndex S j with _ | j'
      · exact ⟨_, rfl⟩
      rcases List.mem_cons.1 hl with rfl | hl
      · simp only at he
        simp only [he]
        exact ⟨_, rfl⟩
      · obtain ⟨err', h⟩ := ih hl
        rcases h2 : e (y + φ (S.c j)) with x | x
        · exact ⟨_, by simp only [h2]; rfl⟩
        · exact ⟨err', by simp only [h2, h]; rfl⟩
  · exact ⟨_, rfl⟩

/-- C104. For the in-place patterns the default `zeroth_timestep` is refused. -/
theorem C104_default_timestep (φ : Vec D →+ G) (S : Stencil D) (n : Vec D) (f : G × Fin S.Q → K)
    (eq : Option (G → Except PyErr (Fin S.Q → K))) (links : List (G × Fin S.Q)) :
    ∀ p ∈ ["aa", "esotwist", "esopull", "esopush"], outflowInit φ S p .both n eq f links = .error .valueError := by
  intro p hp
  have h : getAccessor D p .both = none := by
    simp only [List.mem_cons, List.not_mem_nil, or_false] at hp
    rcases hp with rfl | rfl | rfl | rfl <;> rfl
  unfold outflowInit
  rw [h]
  rfl

end field

/-- C104. Initial data and later steps together: the outflow is initialised from the flow field (which holds the
populations written in step `t₀`, one step or one period before the first execution) and executed after steps `0 … T-1`. If
the population the outflow reads next to the boundary is the same number in the initial field and after every step, then
this number is what the link gives back in every step: a steady state is not disturbed. -/
theorem C104_steady {K : Type} [Field K] {S : Stencil D} (φ : Vec D →+ G) {p : String} (hs : Supported S p)
    (hc : S.InvClosed) (θ : K) (n : Vec D) (fluid : Set G) (links : List (G × Fin S.Q)) (hnd : links.Nodup)
    (hl : ∀ l ∈ links, l.1 ∈ fluid ∧ l.1 + φ (S.c l.2) ∉ fluid) (htan : ∀ l ∈ links, l.1 + φ (S.c l.2 - n) ∈ fluid)
    (t₀ : ℕ) (f₀ : G × Fin S.Q → K) (fs : ℕ → G × Fin S.Q → K) (T : ℕ) :
    ∃ ts w₀ es fs' es', ∃ w : ℕ → G → Fin S.Q → K, stepTimestep p t₀ = some ts ∧ writtenPops φ S p t₀ f₀ = some w₀ ∧
      outflowInit φ S p ts n none f₀ links = .ok es ∧ outflowRun φ S p θ n fs es T = some (fs', es') ∧
      (∀ t, writtenPops φ S p t (fs t) = some (w t)) ∧
      ∀ t < T, ∃ r', readPops φ S p (t + 1) (fs' t) = some r' ∧
        ∀ y j j' v, (y, j) ∈ links → S.c j' = -S.c j → w₀ (y + φ (S.c j - n)) j' = v →
          (∀ s < t, w s (y + φ (S.c j - n)) j' = v) → r' y j' = v := by
  obtain ⟨ts, w₀, es, h1, h2, h3, h4, h5⟩ := C104_from_field φ hs hc t₀ n f₀ links
  have hmem : ∀ e ∈ es, e.1 ∈ links := fun e he => by rw [← h4]; exact List.mem_map_of_mem he
  obtain ⟨fs', es', w, g1, g2, g3⟩ := C31_outflow_history φ hs hc θ n fluid es (by rw [h4]; exact hnd)
    (fun e he => hl _ (hmem e he)) (fun e he => htan _ (hmem e he)) fs T
  refine ⟨ts, w₀, es, fs', es', w, h1, h2, h3, g1, g2, fun t ht => ?_⟩
  obtain ⟨r, r', -, b2, b3, -⟩ := g3 t ht
  refine ⟨r', b2, fun y j j' v hyj hj hv hw => ?_⟩
  rw [← h4] at hyj
  obtain ⟨⟨l, d⟩, he, rfl⟩ := List.mem_map.1 hyj
  obtain ⟨e1, e2⟩ := h5 _ _ d j' he hj
  rw [b3 _ _ d j' he hj, e1, e2, hv]
  have e3 : θ * v + (1 - θ) * v = v := by ring
  rw [e3]
  have key : ∀ k ≤ t, Spec.outflowHistory θ v (fun s => w s (y + φ (S.c j - n)) j') k = v := by
    intro k hk
    induction k with
    | zero => rfl
    | succ k ih => rw [Spec.outflowHistory, ih (by omega), hw k (by omega), e3]
  exact key t le_rfl

/-! ### Values computed from a density and a velocity -/

section equilibrium
variable {K : Type} [Field K] [DecidableEq K]

/-- C104. The initial values are used exactly when both are given and none of them is false for python: a density of 0 or
an empty velocity counts as not given. -/
theorem C104_used_iff {P : Type} {Q : ℕ} (m : MomentMethod K P Q) (meqOf : Macro K D → P → K) (cq : Cqc K D)
    (s : EqSymbols) (density : Option (InitArg G K)) (velocity : Option (InitArg G (List K))) :
    (equilibriumCalculation m meqOf cq s density velocity).isSome ↔
      (∃ d, density = some d ∧ d ≠ .const 0) ∧ ∃ v, velocity = some v ∧ v ≠ .const [] := by
  rcases density with _ | d
  · simp [equilibriumCalculation]
  rcases velocity with _ | v
  · simp [equilibriumCalculation]
  rcases d with d | d <;> rcases v with v | v <;>
    simp [equilibriumCalculation, InitArg.truthy]

variable [CharZero K]

private theorem calcEq_setter {P : Type} {Q : ℕ} (m : MomentMethod K P Q) (meqOf : Macro K D → P → K) (cq : Cqc K D)
    (s : EqSymbols) (density : K) (velocity : List K) (hlen : velocity.length = s.arity D)
    (hsym : ¬ (m.deviationOnly = true ∧ cq.compressible = true)) :
    calcEq m meqOf cq s density velocity =
      setter m meqOf { cq with force := none } (if m.deviationOnly then cq.rho0 + density else density)
        (fun a => velocity.getD a 0) := by
  unfold calcEq setter
  rw [if_neg (by simpa using hlen)]
  have h : ¬ ((m.deviationOnly && cq.compressible && decide (s.order.getD 4 ≠ 0)) = true) := by
    intro h
    simp only [Bool.and_eq_true] at h
    exact hsym h.1
  rw [if_neg h]
  have hx : (if m.deviationOnly then (⟨cq.rho0 + density, density, fun a => velocity.getD a 0⟩ : Macro K D)
      else ⟨density, density - cq.rho0, fun a => velocity.getD a 0⟩) =
      ({ cq with force := none } : Cqc K D).initValues (if m.deviationOnly then cq.rho0 + density else density)
        (fun a => velocity.getD a 0) := by
    unfold Cqc.initValues
    cases m.deviationOnly <;> simp
  rw [← hx]

variable (e : String × String × List (List ℤ))

private theorem calcEq_read (he : e ∈ Tables.predefined) (o : MaxwellOptions K e.2.2)
    (cq : Cqc K (e.2.2.headD []).length) (hv : o.Valid cq) (s : EqSymbols) (density csSq : K)
    (velocity : List K) (hlen : velocity.length = s.arity (e.2.2.headD []).length)
    (hsym : ¬ (o.deviationOnly = true ∧ cq.compressible = true)) (hd : cq.compressible = true → density ≠ 0) :
    ∃ f, calcEq (o.method cq) (o.meqOf cq.compressible) cq s density velocity = .ok f ∧
      (cq.output csSq (Spec.vel e.2.2 _) f).density = (if o.deviationOnly then 1 + density else density) ∧
      (({ cq with force := none } : Cqc K _).output csSq (Spec.vel e.2.2 _) f).velocity =
        fun a : Fin (e.2.2.headD []).length => velocity.getD a.val 0 := by
  rw [calcEq_setter _ _ cq s density velocity hlen hsym]
  have hdev : (o.method cq).deviationOnly = o.deviationOnly := rfl
  rw [hdev]
  have hv' : o.Valid ({ cq with force := none } : Cqc K _) :=
    ⟨hv.offered, hv.weights, hv.rho0, hv.delta, hv.transform, hv.order⟩
  obtain ⟨f, h1, h2, h3⟩ := C21_predefined e he o { cq with force := none } hv'
    (if o.deviationOnly then cq.rho0 + density else density) csSq (fun a => velocity.getD a.val 0) (by
      intro hc
      cases h : o.deviationOnly
      · simpa using hd hc
      · exact absurd ⟨h, hc⟩ hsym)
  exact ⟨f, h1, h2.trans (by rw [hv.rho0]), h3⟩

private theorem output_no_force (cq : Cqc K (e.2.2.headD []).length) (hf : cq.force = none) :
    ({ cq with force := none } : Cqc K (e.2.2.headD []).length) = cq := by
  cases cq; simp only at hf; subst hf; rfl

/-- C104. Absolute equilibria, zero-centred storage or not, any offered moments and rates, no force: the computed initial
populations have the density and the velocity that were given. -/
theorem C104_prescribed_partial (he : e ∈ Tables.predefined) (o : MaxwellOptions K e.2.2)
    (cq : Cqc K (e.2.2.headD []).length) (hv : o.Valid cq) (hf : cq.force = none) (hdev : o.deviationOnly = false)
    (s : EqSymbols) (density csSq : K) (velocity : List K) (hlen : velocity.length = s.arity (e.2.2.headD []).length)
    (hd : cq.compressible = true → density ≠ 0) :
    ∃ f, calcEq (o.method cq) (o.meqOf cq.compressible) cq s density velocity = .ok f ∧
      (cq.output csSq (Spec.vel e.2.2 _) f).density = density ∧
      (cq.output csSq (Spec.vel e.2.2 _) f).velocity = fun a : Fin (e.2.2.headD []).length => velocity.getD a.val 0 := by
  have := calcEq_read e he o cq hv s density csSq velocity hlen (by simp [hdev]) hd
  rw [output_no_force e cq hf] at this
  simpa [hdev] using this

/-- C104. Constants and callbacks: the initial populations of a boundary cell have the density and the velocity given for this cell. -/
theorem C104_prescribed_cells_partial (he : e ∈ Tables.predefined) (o : MaxwellOptions K e.2.2)
    (cq : Cqc K (e.2.2.headD []).length) (hv : o.Valid cq) (hf : cq.force = none) (hdev : o.deviationOnly = false)
    (s : EqSymbols) (csSq : K) (rho : G → K) (u : G → List K) (density : InitArg G K) (velocity : InitArg G (List K))
    (hrho : density = .callback rho ∨ ∃ a, density = .const a ∧ a ≠ 0 ∧ ∀ y, rho y = a)
    (hu : velocity = .callback u ∨ ∃ a, velocity = .const a ∧ a ≠ [] ∧ ∀ y, u y = a) :
    ∃ E, equilibriumCalculation (o.method cq) (o.meqOf cq.compressible) cq s (some density) (some velocity) = some E ∧
      ∀ y, (u y).length = s.arity (e.2.2.headD []).length → (cq.compressible = true → rho y ≠ 0) → ∃ f, E y = .ok f ∧
        (cq.output csSq (Spec.vel e.2.2 _) f).density = rho y ∧
        (cq.output csSq (Spec.vel e.2.2 _) f).velocity = fun a : Fin (e.2.2.headD []).length => (u y).getD a.val 0 := by
  have key : (density.truthy (fun x => decide (x ≠ 0)) && velocity.truthy (fun l => decide (l ≠ []))) = true ∧
      ∀ y, density.at y = rho y ∧ velocity.at y = u y := by
    rcases hrho with rfl | ⟨a, rfl, ha, h1⟩ <;> rcases hu with rfl | ⟨b, rfl, hb, h2⟩
    · exact ⟨rfl, fun y => ⟨rfl, rfl⟩⟩
    · exact ⟨by simp [InitArg.truthy, hb], fun y => ⟨rfl, (h2 y).symm⟩⟩
    · exact ⟨by simp [InitArg.truthy, ha], fun y => ⟨(h1 y).symm, rfl⟩⟩
    · exact ⟨by simp [InitArg.truthy, ha, hb], fun y => ⟨(h1 y).symm, (h2 y).symm⟩⟩
  refine ⟨_, if_pos key.1, fun y hlen hd => ?_⟩
  rw [(key.2 y).1, (key.2 y).2]
  exact C104_prescribed_partial e he o cq hv hf hdev s (rho y) csSq (u y) hlen hd

/-- C104, disagreement: with a force the velocity that is read from the initial populations is not the given one, it differs
by half the force divided by the reference density. -/
theorem C104_force (he : e ∈ Tables.predefined) (o : MaxwellOptions K e.2.2)
    (cq : Cqc K (e.2.2.headD []).length) (hv : o.Valid cq) (k : ForceKind) (F : Fin (e.2.2.headD []).length → K)
    (hf : cq.force = some (k, F)) (hdev : o.deviationOnly = false)
    (s : EqSymbols) (density csSq : K) (velocity : List K) (hlen : velocity.length = s.arity (e.2.2.headD []).length)
    (hd : cq.compressible = true → density ≠ 0) :
    ∃ f, calcEq (o.method cq) (o.meqOf cq.compressible) cq s density velocity = .ok f ∧
      (cq.output csSq (Spec.vel e.2.2 _) f).density = density ∧
      (cq.output csSq (Spec.vel e.2.2 _) f).velocity = fun a : Fin (e.2.2.headD []).length =>
        velocity.getD a.val 0 + F a / (2 * if cq.compressible then density else 1) := by
  obtain ⟨f, h1, h2, h3⟩ := calcEq_read e he o cq hv s density csSq velocity hlen (by simp [hdev]) hd
  rw [hdev] at h2
  refine ⟨f, h1, by simpa using h2, ?_⟩
  funext a
  have h4 := congrFun h3 a
  rw [← h4]
  have h5 : (if cq.zeroCentered then cq.rho0 + ∑ q, f q else ∑ q, f q) = density :=
    h2.trans (if_neg (by simp))
  unfold Cqc.output
  simp only [hf, defaultVelocityShift, h5]
  simp [Cqc.reference, hv.rho0]

/-- C104, disagreement: for the delta equilibrium, which is what is used by default, the given density is taken for the
deviation of the density: the initial populations on the boundary have a density that is larger by 1. -/
theorem C104_delta_equilibrium (he : e ∈ Tables.predefined) (o : MaxwellOptions K e.2.2)
    (cq : Cqc K (e.2.2.headD []).length) (hv : o.Valid cq) (hf : cq.force = none) (hdev : o.deviationOnly = true)
    (hinc : cq.compressible = false) (s : EqSymbols) (density csSq : K) (velocity : List K)
    (hlen : velocity.length = s.arity (e.2.2.headD []).length) :
    ∃ f, calcEq (o.method cq) (o.meqOf cq.compressible) cq s density velocity = .ok f ∧
      (cq.output csSq (Spec.vel e.2.2 _) f).density = density + 1 ∧ (cq.output csSq (Spec.vel e.2.2 _) f).density ≠ density ∧
      (cq.output csSq (Spec.vel e.2.2 _) f).velocity = fun a : Fin (e.2.2.headD []).length => velocity.getD a.val 0 := by
  obtain ⟨f, h1, h2, h3⟩ := calcEq_read e he o cq hv s density csSq velocity hlen (by simp [hinc]) (by simp [hinc])
  rw [output_no_force e cq hf] at h3
  rw [hdev, if_pos rfl, add_comm] at h2
  exact ⟨f, h1, h2, by rw [h2]; simp, h3⟩

omit [CharZero K] in
/-- C104, disagreement: compressible methods with a delta equilibrium cannot be initialised with a density and a velocity
at all. -/
theorem C104_delta_compressible {P : Type} {Q : ℕ} (m : MomentMethod K P Q) (meqOf : Macro K D → P → K) (cq : Cqc K D)
    (s : EqSymbols) (hdev : m.deviationOnly = true) (hc : cq.compressible = true) (ho : s.order ≠ some 0) (density : K)
    (velocity : List K) : ∃ err, calcEq m meqOf cq s density velocity = .error err := by
  unfold calcEq
  split
  · exact ⟨_, rfl⟩
  · rw [if_pos]
    · exact ⟨_, rfl⟩
    · rw [hdev, hc]
      rcases ho' : s.order with _ | k
      · rfl
      · have : k ≠ 0 := by rintro rfl; exact ho ho'
        simpa using this

omit [CharZero K] in
/-- C104, disagreement: with the discrete Maxwellian in two dimensions a velocity with two components is refused; a third
component is needed, and not used. -/
theorem C104_discrete_two_dimensional {P : Type} {Q : ℕ} (m : MomentMethod K P Q) (meqOf : Macro K 2 → P → K)
    (cq : Cqc K 2) (s : EqSymbols) (hs : s.discrete = true) (density ux uy : K) :
    calcEq m meqOf cq s density [ux, uy] = .error .typeError ∧
      ∀ uz uz', calcEq m meqOf cq s density [ux, uy, uz] = calcEq m meqOf cq s density [ux, uy, uz'] := by
  constructor
  · unfold calcEq EqSymbols.arity
    simp [hs]
  · intro uz uz'
    have : ∀ z : K, (fun a : Fin 2 => [ux, uy, z].getD a 0) = ![ux, uy] := by
      intro z; funext a; fin_cases a <;> rfl
    unfold calcEq EqSymbols.arity
    simp only [this]
    simp [hs]

/-- D2Q9, incompressible, zero-centred with a delta equilibrium (the default): the density 1 becomes 2 -/
example : ∃ f, calcEq (ForceExample.o.method { ForceExample.cq with compressible := false, force := none })
      (ForceExample.o.meqOf false) { ForceExample.cq with compressible := false, force := none } ⟨false, some 2⟩ 1
      [1 / 10, 0] = .ok f ∧
    (({ ForceExample.cq with compressible := false, force := none } : Cqc ℚ (ForceExample.st.headD []).length).output (1 / 3)
      (Spec.vel ForceExample.st (ForceExample.st.headD []).length) f).density = 2 := by
  have he : ("D2Q9", "uk", ForceExample.st) ∈ Tables.predefined := by decide +kernel
  have hv : ForceExample.o.Valid { ForceExample.cq with compressible := false, force := none } :=
    ⟨ForceExample.valid.offered, ForceExample.valid.weights, rfl, fun _ => rfl, fun _ h => absurd h (by decide),
      ForceExample.valid.order⟩
  obtain ⟨f, h1, h2, -⟩ := C104_delta_equilibrium _ he ForceExample.o _ hv rfl rfl rfl ⟨false, some 2⟩ 1 (1 / 3)
    [1 / 10, 0] rfl
  exact ⟨f, h1, h2.trans (by norm_num)⟩

/-- D2Q9, compressible, absolute storage -/
example : ∃ f, calcEq (({ ForceExample.o with deviationOnly := false } : MaxwellOptions ℚ ForceExample.st).method
        { ForceExample.cq with zeroCentered := false, force := none })
      (({ ForceExample.o with deviationOnly := false } : MaxwellOptions ℚ ForceExample.st).meqOf true)
      { ForceExample.cq with zeroCentered := false, force := none } ⟨false, some 2⟩ (6 / 5) [1 / 10, 0] = .ok f ∧
    (({ ForceExample.cq with zeroCentered := false, force := none } : Cqc ℚ (ForceExample.st.headD []).length).output (1 / 3)
      (Spec.vel ForceExample.st (ForceExample.st.headD []).length) f).density = 6 / 5 := by
  have he : ("D2Q9", "uk", ForceExample.st) ∈ Tables.predefined := by decide +kernel
  have hv : ({ ForceExample.o with deviationOnly := false } : MaxwellOptions ℚ ForceExample.st).Valid
      { ForceExample.cq with zeroCentered := false, force := none } :=
    ⟨ForceExample.valid.offered, ForceExample.valid.weights, rfl, fun h => absurd h (by decide),
      fun h _ => absurd h (by decide), ForceExample.valid.order⟩
  obtain ⟨f, h1, h2, -⟩ := C104_prescribed_partial _ he _ _ hv rfl rfl ⟨false, some 2⟩ (6 / 5) (1 / 3)
    [1 / 10, 0] rfl (fun _ => by norm_num)
  exact ⟨f, h1, h2⟩

/-- the same with a density that depends on the cell and a constant velocity: in the cell (2, 3) the density is 6/5 -/
example : ∃ E f, equilibriumCalculation (({ ForceExample.o with deviationOnly := false } : MaxwellOptions ℚ ForceExample.st).method
        { ForceExample.cq with zeroCentered := false, force := none })
      (({ ForceExample.o with deviationOnly := false } : MaxwellOptions ℚ ForceExample.st).meqOf true)
      { ForceExample.cq with zeroCentered := false, force := none } ⟨false, some 2⟩
      (some (.callback fun y : ℤ × ℤ => 1 + y.1 / 10)) (some (.const [1 / 10, 0])) = some E ∧ E (2, 3) = .ok f ∧
    (({ ForceExample.cq with zeroCentered := false, force := none } : Cqc ℚ (ForceExample.st.headD []).length).output (1 / 3)
      (Spec.vel ForceExample.st (ForceExample.st.headD []).length) f).density = 6 / 5 := by
  have he : ("D2Q9", "uk", ForceExample.st) ∈ Tables.predefined := by decide +kernel
  have hv : ({ ForceExample.o with deviationOnly := false } : MaxwellOptions ℚ ForceExample.st).Valid
      { ForceExample.cq with zeroCentered := false, force := none } :=
    ⟨ForceExample.valid.offered, ForceExample.valid.weights, rfl, fun h => absurd h (by decide),
      fun h _ => absurd h (by decide), ForceExample.valid.order⟩
  obtain ⟨E, h, k⟩ := C104_prescribed_cells_partial _ he _ _ hv rfl rfl ⟨false, some 2⟩ (1 / 3)
    (fun y : ℤ × ℤ => 1 + (y.1 : ℚ) / 10) (fun _ => [1 / 10, 0]) _ _ (Or.inl rfl) (Or.inr ⟨_, rfl, by simp, fun _ => rfl⟩)
  obtain ⟨f, h1, h2, -⟩ := k (2, 3) rfl (fun _ => by norm_num)
  exact ⟨E, f, h, h1, h2.trans (by norm_num)⟩

end equilibrium

/-- an outflow at the right end of the half plane `x ≤ 0`, initialised from the field for the AA pattern -/
example : ((outflowInit exPlane exStencil "aa" .odd ![1, 0] none (fun k => 1000 * k.1.1 + 10 * k.1.2 + k.2.val)
    [((0, 5), ⟨4, by decide⟩), ((0, 5), ⟨6, by decide⟩)]).toOption.map (List.map fun r => (r.2.pdf, r.2.nd))) =
      some [(-947, -947), (-943, -943)] := by
  decide +kernel

end Lbm
