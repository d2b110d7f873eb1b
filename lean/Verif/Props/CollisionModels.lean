/-
C36: zero-centred storage. C38: two relaxation times. Instances of C19.
-/
import Verif.Props.Collision
import Verif.Props.MomentSets
import Mathlib.LinearAlgebra.Matrix.ToLinearEquiv

set_option linter.unusedSectionVars false

namespace Lbm

open Matrix

namespace MomentMethod
variable {K P : Type} [Field K] [DecidableEq K] [DecidableEq P] {Q : ℕ}

/-! ### C36 -/

/-- `z` describes the same physics as the absolute-storage method `a`, with populations stored relative to `w`: same
moments, rates, derivation space; the force terms are the same functions of the absolute populations; the equilibrium is
either given as the deviation from the background (`deviation_only`), or absolute with a background distribution of
populations `w`. -/
structure ZeroCentredOf (z a : MomentMethod K P Q) (w : Fin Q → K) : Prop where
  abs : a.zeroCentered = false
  zc : z.zeroCentered = true
  relax : z.relax = a.relax
  ev : z.ev = a.ev
  space : z.momentSpace = a.momentSpace
  format : (z.deviationOnly = true ∧ ∀ g p, z.meq g p = a.meq (g + w) p - Spec.mom (a.ev p) w) ∨
    (z.deviationOnly = false ∧ (∀ g p, z.meq g p = a.meq (g + w) p) ∧
      z.background = some fun p => Spec.mom (a.ev p) w)
  force : z.force = a.force.map fun t =>
    ⟨fun g => t.pop (g + w), t.momentSpace.map fun F g => F (g + w)⟩

theorem ZeroCentredOf.forceMoment {z a : MomentMethod K P Q} {w : Fin Q → K} (hz : ZeroCentredOf z a w)
    (h : z.relax.length = Q) (h' : a.relax.length = Q) (inc : Bool) (g : Fin Q → K) (i : Fin Q)
    (hm : z.moment h i = a.moment h' i) :
    z.forceMoment h inc g i = a.forceMoment h' inc (g + w) i := by
  have h1 : z.momentForcing inc = (a.momentForcing inc).map fun F g => F (g + w) := by
    unfold momentForcing
    rw [hz.force, hz.space]
    by_cases hc : (inc && a.momentSpace) = true
    · rw [if_pos hc, if_pos hc]; rcases a.force with _ | ⟨t, _ | F⟩ <;> rfl
    · rw [if_neg hc, if_neg hc]; rfl
  have h2 : z.popForcing inc = (a.popForcing inc).map fun F g => F (g + w) := by
    unfold popForcing
    rw [h1, Option.isNone_map, hz.force]
    by_cases hc : (inc && (a.momentForcing inc).isNone) = true
    · rw [if_pos hc, if_pos hc]; rcases a.force with _ | ⟨t, _ | F⟩ <;> rfl
    · rw [if_neg hc, if_neg hc]; rfl
  unfold MomentMethod.forceMoment
  rw [h1, h2, hz.ev, hm]
  rcases a.momentForcing inc with _ | F
  · rcases a.popForcing inc with _ | F <;> rfl
  · rfl

/-- C36, one collision: whenever both methods can be derived, colliding the deviations and adding the background is
colliding the absolute populations. -/
theorem C36_collision {z a : MomentMethod K P Q} {w : Fin Q → K} (hz : ZeroCentredOf z a w) (d : Fin Q → K)
    (inc : Bool) {rz ra : (Fin Q → K) → Fin Q → K} (hrz : z.collisionRule d inc = .ok rz)
    (hra : a.collisionRule d inc = .ok ra) (g : Fin Q → K) : rz g + w = ra (g + w) := by
  have hwa := (C19_defined_iff a d inc).1 ⟨ra, hra⟩
  have hwz := (C19_defined_iff z d inc).1 ⟨rz, hrz⟩
  have h' : a.relax.length = Q := hwa.1.1
  have h : z.relax.length = Q := hwz.1.1
  apply ext_moments a hwa h'
  intro i
  have hm : z.moment h i = a.moment h' i := by simp only [moment, hz.relax]
  have ka := C19_moments a d inc ra hra h' (g + w) i
  have kz := C19_moments z d inc rz hrz h g i
  rw [hz.forceMoment h h' inc g i hm, hm, hz.ev] at kz
  have hba : a.bgMoment (a.moment h' i) = 0 := by simp [bgMoment, hz.abs]
  rw [hba] at ka
  rw [mom_add] at ka ⊢
  rcases hz.format with ⟨hd, he⟩ | ⟨hd, he, hb⟩
  · have hbz : z.bgMoment (a.moment h' i) = 0 := by simp [bgMoment, hd]
    rw [hbz, he] at kz
    linear_combination kz - ka
  · have hbz : z.bgMoment (a.moment h' i) = Spec.mom (a.ev (a.moment h' i)) w := by simp [bgMoment, hd, hz.zc, hb]
    rw [hbz, he] at kz
    linear_combination kz - ka

/-- C36: the two simulations stay equal up to the background after any number of steps, for every streaming pattern
(possibly a different one for each of them). -/
theorem C36_simulation {D : ℕ} {G : Type} [AddCommGroup G] [DecidableEq G] (φ : Vec D →+ G) {S : Stencil D}
    {p p' : String} (hs : Supported S p) (hs' : Supported S p') {z a : MomentMethod K P S.Q} {w : Fin S.Q → K}
    (hz : ZeroCentredOf z a w) {rz ra : (Fin S.Q → K) → Fin S.Q → K} (hrz : z.getCollisionRule = .ok rz)
    (hra : a.getCollisionRule = .ok ra) {cells : List G} (hn : cells.Nodup) (hall : ∀ x, x ∈ cells)
    (sz sa : (G × Fin S.Q → K) × (G × Fin S.Q → K)) (g₀ : G → Fin S.Q → K)
    (h0 : readPops φ S p 0 sz.1 = some g₀) (h0' : readPops φ S p' 0 sa.1 = some fun x i => g₀ x i + w i) (n : ℕ) :
    ∃ sz' sa' g, run φ S p (fun _ _ => rz) (fun _ f => some f) cells n sz = some sz' ∧
      run φ S p' (fun _ _ => ra) (fun _ f => some f) cells n sa = some sa' ∧
      readPops φ S p n sz'.1 = some g ∧ readPops φ S p' n sa'.1 = some fun x i => g x i + w i := by
  obtain ⟨sz', a1, b1, h1, h2, h3, h4⟩ := C01_streaming_pattern_equals_textbook φ hs (fun _ _ => rz) hn hall sz n
  obtain ⟨sa', a2, b2, k1, k2, k3, k4⟩ := C01_streaming_pattern_equals_textbook φ hs' (fun _ _ => ra) hn hall sa n
  rw [h0] at h2; cases h2
  rw [h0'] at k2; cases k2
  refine ⟨sz', sa', b1, h1, k1, h3, ?_⟩
  rw [k3, k4, h4]
  congr 1
  have hd : z.effectiveRates none = a.effectiveRates none := by
    funext i; simp only [effectiveRates, hz.relax]
  have hra' : a.collisionRule (z.effectiveRates none) true = .ok ra := by rw [hd]; exact hra
  clear h1 h3 h4 k1 k3 k4 h0 h0'
  induction n with
  | zero => rfl
  | succ n ih =>
    funext x i
    have key := C36_collision hz _ true hrz hra'
      (Spec.textbook (fun i => φ (S.c i)) (fun _ _ => rz) n g₀ (x - φ (S.c i)))
    have ih' := congrFun ih (x - φ (S.c i))
    show ra (Spec.textbook _ _ n _ (x - φ (S.c i))) i = rz (Spec.textbook _ _ n g₀ (x - φ (S.c i))) i + w i
    rw [ih']
    exact (congrFun key i).symm

/-! ### C38 -/

/-- C38: if every moment is even or odd under the reversal `σ` of the velocities and even moments have rate `ωe`, odd
ones `ωo`, then the symmetric part of every pair of populations relaxes with `ωe` and the antisymmetric part with
`ωo`. -/
theorem C38_even_odd_decouple (hK : (2 : K) ≠ 0) (m : MomentMethod K P Q) (hw : m.WellFormed) (hF : m.force = none)
    (hz : m.zeroCentered = false ∨ m.deviationOnly = true) (feq : (Fin Q → K) → Fin Q → K)
    (heq : ∀ f h i, m.meq f (m.moment h i) = Spec.mom (m.ev (m.moment h i)) (feq f))
    (σ : Fin Q → Fin Q) (hσ : ∀ q, σ (σ q) = q) (ωe ωo : K)
    (hpar : ∀ h i, (m.rate h i = ωe ∧ ∀ q, m.ev (m.moment h i) (σ q) = m.ev (m.moment h i) q) ∨
      (m.rate h i = ωo ∧ ∀ q, m.ev (m.moment h i) (σ q) = -m.ev (m.moment h i) q)) :
    ∃ r, m.getCollisionRule = .ok r ∧ ∀ f q,
      (r f q + r f (σ q)) / 2 = (f q + f (σ q)) / 2 +
        ωe * ((feq f q + feq f (σ q)) / 2 - (f q + f (σ q)) / 2) ∧
      (r f q - r f (σ q)) / 2 = (f q - f (σ q)) / 2 +
        ωo * ((feq f q - feq f (σ q)) / 2 - (f q - f (σ q)) / 2) := by
  obtain ⟨r, hr⟩ := (C19_defined_iff m (m.effectiveRates none) true).2 hw
  have h := hw.1.1
  refine ⟨r, hr, fun f => ?_⟩
  -- the candidate
  let g : Fin Q → K := fun q => f q + ωe * ((feq f q + feq f (σ q)) / 2 - (f q + f (σ q)) / 2) +
    ωo * ((feq f q - feq f (σ q)) / 2 - (f q - f (σ q)) / 2)
  have hg : r f = g := by
    apply ext_moments m hw h
    intro i
    have key := C19_moments m _ true r hr h f i
    have hf : m.forceMoment h true f i = 0 := by simp [forceMoment, popForcing, momentForcing, hF]
    have hb : m.bgMoment (m.moment h i) = 0 := by unfold bgMoment; rcases hz with hz | hz <;> simp [hz]
    have hdi : m.effectiveRates none i = m.rate h i := by
      have hi : i.val < (m.relax.map Prod.snd).length := by rw [List.length_map, h]; exact i.isLt
      simp only [effectiveRates, List.getD_eq_getElem?_getD, List.getElem?_eq_getElem hi, Option.getD_some,
        List.getElem_map]
      rfl
    rw [hf, heq, hb, hdi, add_zero, add_zero, add_zero] at key
    generalize he : m.ev (m.moment h i) = e at key
    rw [key]
    -- sums over reversed populations
    let τ : Equiv.Perm (Fin Q) := ⟨σ, σ, hσ, hσ⟩
    have hsum : ∀ v : Fin Q → K, Spec.mom e (fun q => v (σ q)) = ∑ q, e (σ q) * v q := by
      intro v
      unfold Spec.mom
      rw [← Equiv.sum_comp τ (fun q => e q * v (σ q))]
      refine Finset.sum_congr rfl fun q _ => ?_
      show e (σ q) * v (σ (σ q)) = _
      rw [hσ]
    have hgm : Spec.mom e g = Spec.mom e f + ωe * ((Spec.mom e (feq f) + Spec.mom e (fun q => feq f (σ q))) / 2 -
        (Spec.mom e f + Spec.mom e (fun q => f (σ q))) / 2) +
        ωo * ((Spec.mom e (feq f) - Spec.mom e (fun q => feq f (σ q))) / 2 -
        (Spec.mom e f - Spec.mom e (fun q => f (σ q))) / 2) := by
      simp only [Spec.mom, g, div_eq_mul_inv, Finset.mul_sum, Finset.sum_mul, ← Finset.sum_add_distrib,
        ← Finset.sum_sub_distrib]
      exact Finset.sum_congr rfl fun _ _ => by ring
    rw [hgm, hsum, hsum]
    rcases hpar h i with ⟨h1, h2⟩ | ⟨h1, h2⟩
    · have h3 : ∀ v : Fin Q → K, ∑ q, e (σ q) * v q = Spec.mom e v := fun v =>
        Finset.sum_congr rfl fun q _ => by rw [← he, h2]
      rw [h3, h3, h1]
      field_simp
      ring
    · have h3 : ∀ v : Fin Q → K, ∑ q, e (σ q) * v q = -Spec.mom e v := fun v => by
        unfold Spec.mom
        rw [← Finset.sum_neg_distrib]
        exact Finset.sum_congr rfl fun q _ => by rw [← he, h2]; ring
      rw [h3, h3, h1]
      field_simp
      ring
  intro q
  rw [hg]
  have hq : g (σ q) = f (σ q) + ωe * ((feq f (σ q) + feq f q) / 2 - (f (σ q) + f q) / 2) +
    ωo * ((feq f (σ q) - feq f q) / 2 - (f (σ q) - f q) / 2) := by simp only [g, hσ]
  rw [hq]
  constructor <;> · simp only [g]; field_simp; ring

end MomentMethod

/-! #### `create_trt` on the predefined stencils -/

theorem PExpr.eval_opposite {R : Type} [CommRing R] (p : PExpr) (v : Fin 3 → R) :
    p.opposite.eval v = p.eval fun i => -v i := by
  induction p with
  | const n => rfl
  | var i => show ((-1 : ℤ) : R) * v i = -v i; simp
  | add a b iha ihb => show a.opposite.eval v + b.opposite.eval v = _; rw [iha, ihb]; rfl
  | sub a b iha ihb => show a.opposite.eval v - b.opposite.eval v = _; rw [iha, ihb]; rfl
  | mul a b iha ihb => show a.opposite.eval v * b.opposite.eval v = _; rw [iha, ihb]; rfl
  | pow a n ih => show a.opposite.eval v ^ n = _; rw [ih]; rfl

/-- C38: `is_even` says yes only for polynomials that do not change under sign reversal. -/
theorem C38_is_even_sound (p : PExpr) (hp : p.isEven = true) {R : Type} [CommRing R] (v : Fin 3 → R) :
    (p.eval fun i => -v i) = p.eval v := by
  have h : (p - p.opposite).expand = [] := by simpa [PExpr.isEven] using hp
  have := C47_expand (p - p.opposite) v
  rw [h] at this
  have h2 : (p - p.opposite).eval v = p.eval v - p.opposite.eval v := rfl
  rw [h2, PExpr.eval_opposite] at this
  have h3 : Spec.polyEval (List.map (fun t : ℤ × List ℕ => ((t.1 : R), t.2)) []) [v 0, v 1, v 2] = 0 := by
    simp [Spec.polyEval]
  rw [h3] at this
  exact (sub_eq_zero.1 this.symm).symm

/-- A polynomial is odd if adding its reversal cancels. -/
theorem PExpr.odd_of_expand (p : PExpr) (hp : (p + p.opposite).expand = []) {R : Type} [CommRing R] (v : Fin 3 → R) :
    (p.eval fun i => -v i) = -p.eval v := by
  have := C47_expand (p + p.opposite) v
  rw [hp] at this
  have h2 : (p + p.opposite).eval v = p.eval v + p.opposite.eval v := rfl
  rw [h2, PExpr.eval_opposite] at this
  have h3 : Spec.polyEval (List.map (fun t : ℤ × List ℕ => ((t.1 : R), t.2)) []) [v 0, v 1, v 2] = 0 := by
    simp [Spec.polyEval]
  rw [h3] at this
  linear_combination -this

theorem PExpr.at_neg_even (p : PExpr) (hp : p.isEven = true) (c d : List ℤ) (hcd : ∀ i : Fin 3, d.getD i 0 = -c.getD i 0) :
    p.at' d = p.at' c := by
  unfold PExpr.at'
  rw [← C38_is_even_sound p hp (fun i : Fin 3 => (c.getD i 0 : ℤ))]
  congr 1
  funext i
  exact hcd i

theorem PExpr.at_neg_odd (p : PExpr) (hp : (p + p.opposite).expand = []) (c d : List ℤ)
    (hcd : ∀ i : Fin 3, d.getD i 0 = -c.getD i 0) : p.at' d = -p.at' c := by
  unfold PExpr.at'
  rw [← PExpr.odd_of_expand p hp (fun i : Fin 3 => (c.getD i 0 : ℤ))]
  congr 1
  funext i
  exact hcd i

/-- The default sets consist of even and odd polynomials. -/
theorem default_parity : ∀ e ∈ Tables.predefined,
    ∀ ps ∈ defaultMomentSet (e.2.2.headD []).length e.2.2.length,
      ∀ p ∈ ps, p.isEven = true ∨ (p + p.opposite).expand = [] := by
  have key : ∀ e ∈ Tables.predefined, (match defaultMomentSet (e.2.2.headD []).length e.2.2.length with
      | none => true
      | some ps => ps.all fun p => p.isEven || ((p + p.opposite).expand == [])) = true := by decide +kernel
  intro e he ps hps p hp
  have h := key e he
  rw [Option.mem_def.1 hps] at h
  have h2 := List.all_eq_true.1 h p hp
  simpa using h2

/-- A moment basis in the sense of C47, in any order, gives a derivable method. -/
theorem wellFormed_of_unisolvent {K : Type} [Field K] [DecidableEq K] [CharZero K] (st : List (List ℤ))
    (m : MomentMethod K PExpr st.length) (hev : ∀ p q, m.ev p q = (p.at' (st.get q) : K))
    {ps : List PExpr} (hp : (m.relax.map Prod.fst).Perm ps) (hu : Spec.Unisolvent st ps)
    (hz : m.zeroCentered = true → m.deviationOnly = false → m.momentSpace = true ∧ m.background.isSome) :
    m.WellFormed := by
  obtain ⟨hlen, hu⟩ := hu
  have h : m.relax.length = st.length := (List.length_map Prod.fst).symm.trans (hp.length_eq.trans hlen)
  refine ⟨⟨h, ?_⟩, hz⟩
  have hinj : Function.Injective (m.matrix h).mulVec := by
    intro f g hfg
    have hall : ∀ p ∈ ps, ∑ j, (p.at' (st.get j) : K) * g j = ∑ j, (p.at' (st.get j) : K) * f j := by
      intro p hpm
      obtain ⟨⟨p', r⟩, hr, rfl⟩ := List.mem_map.1 (hp.symm.subset hpm)
      obtain ⟨i, hi, hri⟩ := List.getElem_of_mem hr
      have := congrFun hfg ⟨i, by omega⟩
      simp only [mulVec, dotProduct, MomentMethod.matrix, MomentMethod.moment, hev, hri] at this
      exact this.symm
    obtain ⟨u, -, huniq⟩ := hu K (fun i => ∑ j, ((ps.get i).at' (st.get j) : K) * f j)
    rw [huniq f fun i => rfl, huniq g fun i => hall _ (List.get_mem _ _)]
  exact fun h0 => by
    obtain ⟨v, hv, hv0⟩ := exists_mulVec_eq_zero_iff.2 h0
    exact hv (hinj (by rw [hv0, mulVec_zero]))

/-- C19 + C47: on every predefined stencil, every offered moment set gives a derivable method. -/
theorem C19_offered_sets_well_formed {K : Type} [Field K] [DecidableEq K] [CharZero K] : ∀ e ∈ Tables.predefined,
    ∀ m : MomentMethod K PExpr e.2.2.length, (∀ p q, m.ev p q = (p.at' (e.2.2.get q) : K)) →
      (m.zeroCentered = false ∨ m.deviationOnly = true) →
      ((∃ ps ∈ defaultMomentSet (e.2.2.headD []).length e.2.2.length, (m.relax.map Prod.fst).Perm ps) ∨
        (∃ g ∈ cascadedMomentSets e.2.2, (m.relax.map Prod.fst).Perm g.flatten) ∨
        (∃ w, ∃ g ∈ orthogonalModes e.2.2 w, (m.relax.map Prod.fst).Perm g.flatten)) →
      m.WellFormed := by
  intro e he m hev hz hm
  obtain ⟨h1, h2, h3⟩ := C47_moment_sets_are_bases e he
  have hz' : m.zeroCentered = true → m.deviationOnly = false → m.momentSpace = true ∧ m.background.isSome := by
    intro a b; rcases hz with hz | hz <;> simp_all
  rcases hm with ⟨ps, hps, hm⟩ | ⟨g, hg, hm⟩ | ⟨w, g, hg, hm⟩
  · exact wellFormed_of_unisolvent _ m hev hm (h1 _ hps) hz'
  · exact wellFormed_of_unisolvent _ m hev hm (h2 g hg) hz'
  · exact wellFormed_of_unisolvent _ m hev hm (h3 w g hg) hz'

/-- C38: `create_trt` on a predefined stencil (any order of the default moments): the symmetric part of every
population pair relaxes with the even rate, the antisymmetric part with the odd rate. `σ` is the reversal of the
velocities. -/
theorem C38_create_trt {K : Type} [Field K] [DecidableEq K] [CharZero K] : ∀ e ∈ Tables.predefined,
    ∀ ps ∈ defaultMomentSet (e.2.2.headD []).length e.2.2.length, ∀ ps', ps'.Perm ps →
    ∀ (ωe ωo : K) (m : MomentMethod K PExpr e.2.2.length), m.relax = trtRates ps' ωe ωo →
    (∀ p q, m.ev p q = (p.at' (e.2.2.get q) : K)) → m.force = none →
    (m.zeroCentered = false ∨ m.deviationOnly = true) →
    ∀ feq : (Fin e.2.2.length → K) → Fin e.2.2.length → K,
    (∀ f h i, m.meq f (m.moment h i) = Spec.mom (m.ev (m.moment h i)) (feq f)) →
    ∀ σ : Fin e.2.2.length → Fin e.2.2.length, (∀ q, σ (σ q) = q) →
    (∀ q (i : Fin 3), (e.2.2.get (σ q)).getD i 0 = -(e.2.2.get q).getD i 0) →
    ∃ r, m.getCollisionRule = .ok r ∧ ∀ f q,
      (r f q + r f (σ q)) / 2 = (f q + f (σ q)) / 2 +
        ωe * ((feq f q + feq f (σ q)) / 2 - (f q + f (σ q)) / 2) ∧
      (r f q - r f (σ q)) / 2 = (f q - f (σ q)) / 2 +
        ωo * ((feq f q - feq f (σ q)) / 2 - (f q - f (σ q)) / 2) := by
  intro e he ps hps ps' hperm ωe ωo m hrel hev hF hz feq heq σ hσ hσc
  have hu := (C47_moment_sets_are_bases e he).1 ps hps
  have hfst : m.relax.map Prod.fst = ps' := by
    rw [hrel, trtRates, List.map_map]; exact List.map_id' ps'
  have hw : m.WellFormed := by
    refine wellFormed_of_unisolvent _ m hev (by rw [hfst]; exact hperm) hu ?_
    intro a b; rcases hz with hz | hz <;> simp_all
  refine MomentMethod.C38_even_odd_decouple two_ne_zero m hw hF hz feq heq σ hσ ωe ωo ?_
  intro h i
  have hi : i.val < ps'.length := by rw [← hfst, List.length_map, h]; exact i.isLt
  have hget : m.relax[i.val]'(by have := i.isLt; omega) = (ps'[i.val], if ps'[i.val].isEven then ωe else ωo) := by
    simp only [hrel, trtRates, List.getElem_map]
  have hmom : m.moment h i = ps'[i.val] := by simp only [MomentMethod.moment, hget]
  have hrate : m.rate h i = if ps'[i.val].isEven then ωe else ωo := by simp only [MomentMethod.rate, hget]
  rw [hmom, hrate]
  have hmem : ps'[i.val] ∈ ps := hperm.subset (List.getElem_mem _)
  rcases default_parity e he ps hps _ hmem with hp | hp
  · left
    refine ⟨by rw [if_pos hp], fun q => ?_⟩
    rw [hev, hev, PExpr.at_neg_even _ hp _ _ (hσc q)]
  · by_cases hev' : ps'[i.val].isEven = true
    · left
      refine ⟨by rw [if_pos hev'], fun q => ?_⟩
      rw [hev, hev, PExpr.at_neg_even _ hev' _ _ (hσc q)]
    · right
      refine ⟨by rw [if_neg hev'], fun q => ?_⟩
      rw [hev, hev, PExpr.at_neg_odd _ hp _ _ (hσc q)]
      push_cast; ring

/-- C38: with equal rates `create_trt` assigns the rates of `create_srt`. -/
theorem C38_equal_rates_is_srt {K : Type} (ps : List PExpr) (ω : K) : trtRates ps ω ω = srtRates ps ω := by
  simp [trtRates, srtRates]

/-! ### A concrete method: D2Q9, two relaxation times, rest equilibrium `w ρ`, a constant force -/

namespace CollisionExample

open PExpr

abbrev st : List (List ℤ) := Tables.D2Q9_walberla
def ps : List PExpr := (momentsUpToComponentOrder 2 2).map ofExponents
def w (q : Fin st.length) : ℚ := [4/9, 1/9, 1/9, 1/9, 1/9, 1/36, 1/36, 1/36, 1/36].getD q.val 0
def feq (f : Fin st.length → ℚ) (q : Fin st.length) : ℚ := w q * ∑ j, f j

/-- absolute storage -/
def a : MomentMethod ℚ PExpr st.length where
  relax := trtRates ps 1 (3/2)
  ev p q := (p.at' (st.get q) : ℚ)
  meq f p := Spec.mom (fun q => (p.at' (st.get q) : ℚ)) (feq f)
  zeroCentered := false
  deviationOnly := false
  background := none
  momentSpace := true
  force := some ⟨fun _ q => if q.val = 3 then 1/100 else 0, none⟩

/-- zero-centred storage, absolute equilibrium -/
def z : MomentMethod ℚ PExpr st.length where
  relax := a.relax
  ev := a.ev
  meq g p := a.meq (g + w) p
  zeroCentered := true
  deviationOnly := false
  background := some fun p => Spec.mom (a.ev p) w
  momentSpace := true
  force := a.force

theorem basis : Spec.Unisolvent st ps :=
  (C47_moment_sets_are_bases ("D2Q9", "walberla", st) (by decide +kernel)).1 ps rfl

theorem a_wellFormed : a.WellFormed :=
  wellFormed_of_unisolvent st a (fun _ _ => rfl) (ps := ps) (List.Perm.of_eq (by decide +kernel)) basis
    (fun h => absurd h (by decide))

theorem z_wellFormed : z.WellFormed :=
  wellFormed_of_unisolvent st z (fun _ _ => rfl) (ps := ps) (List.Perm.of_eq (by decide +kernel)) basis
    (fun _ _ => ⟨rfl, rfl⟩)

/-- the hypotheses of C36 are met by a method with two different rates and a force -/
theorem z_of_a : MomentMethod.ZeroCentredOf z a w :=
  ⟨rfl, rfl, rfl, rfl, rfl, .inr ⟨rfl, fun _ _ => rfl, rfl⟩, rfl⟩

example : ∃ rz ra, z.getCollisionRule = .ok rz ∧ a.getCollisionRule = .ok ra ∧ ∀ g, rz g + w = ra (g + w) := by
  obtain ⟨rz, hz⟩ := (MomentMethod.C19_defined_iff z (z.effectiveRates none) true).2 z_wellFormed
  obtain ⟨ra, ha⟩ := (MomentMethod.C19_defined_iff a (a.effectiveRates none) true).2 a_wellFormed
  exact ⟨rz, ra, hz, ha, MomentMethod.C36_collision z_of_a _ true hz ha⟩

/-- the moment `y` relaxes towards 0 with rate 3/2 -/
example (r) (hr : a.collisionRule (a.effectiveRates none) false = .ok r) (f : Fin st.length → ℚ) :
    Spec.mom (a.ev PExpr.y) (r f) = -(1/2) * Spec.mom (a.ev PExpr.y) f := by
  have hl : a.relax.length = st.length := by decide +kernel
  have h := MomentMethod.C19_moments a _ false r hr hl f ⟨1, by decide⟩
  have h1 : a.moment hl ⟨1, by decide⟩ = ofExponents [0, 1] := rfl
  have h2 : a.effectiveRates none ⟨1, by decide⟩ = 3/2 := by decide +kernel
  have h3 : ∀ f, Spec.mom (a.ev (ofExponents [0, 1])) f = Spec.mom (a.ev PExpr.y) f := by
    have : a.ev (ofExponents [0, 1]) = a.ev PExpr.y := by
      funext q; revert q; decide +kernel
    intro f; rw [this]
  have h4 : a.meq f (ofExponents [0, 1]) = 0 := by
    have e : a.meq f (ofExponents [0, 1]) = Spec.mom (a.ev (ofExponents [0, 1])) (feq f) := rfl
    have e2 : Spec.mom (a.ev (ofExponents [0, 1])) (feq f) =
        Spec.mom (a.ev (ofExponents [0, 1])) w * ∑ j, f j := by
      unfold Spec.mom feq; rw [Finset.sum_mul]; exact Finset.sum_congr rfl fun _ _ => by ring
    have e3 : Spec.mom (a.ev (ofExponents [0, 1])) w = 0 := by decide +kernel
    rw [e, e2, e3, zero_mul]
  have h5 : a.bgMoment (ofExponents [0, 1]) = 0 := rfl
  have h6 : a.forceMoment hl false f ⟨1, by decide⟩ = 0 := rfl
  rw [h1, h2, h4, h5, h6, h3, h3] at h
  linear_combination h

/-- C38 applies to `a` without force -/
example : ∃ r, ({ a with force := none } : MomentMethod ℚ PExpr st.length).getCollisionRule = .ok r ∧
    ∀ f, (r f (1 : Fin 9) + r f (2 : Fin 9)) / 2 = (feq f (1 : Fin 9) + feq f (2 : Fin 9)) / 2 := by
  obtain ⟨r, hr, h⟩ := C38_create_trt ("D2Q9", "walberla", st) (by decide +kernel) ps rfl ps (List.Perm.refl _)
    (1 : ℚ) (3/2) { a with force := none } rfl (fun _ _ => rfl) rfl (.inl rfl) feq (fun _ _ _ => rfl)
    (fun q => ⟨[0, 2, 1, 4, 3, 8, 7, 6, 5].getD q.val 0, by revert q; decide +kernel⟩) (by decide +kernel)
    (by decide +kernel)
  refine ⟨r, hr, fun f => ?_⟩
  have := (h f (1 : Fin 9)).1
  rw [one_mul] at this
  refine this.trans ?_
  show (f (1 : Fin 9) + f (2 : Fin 9)) / 2 + ((feq f (1 : Fin 9) + feq f (2 : Fin 9)) / 2 -
    (f (1 : Fin 9) + f (2 : Fin 9)) / 2) = (feq f (1 : Fin 9) + feq f (2 : Fin 9)) / 2
  ring

/-- `set_conserved_moments_relaxation_rate` on `a` -/
example : ∃ m', a.setConservedRate (ofExponents [0, 0]) [ofExponents [1, 0], ofExponents [0, 1]] 0 = .ok m' := by
  have h := (MomentMethod.C19_set_conserved_rate a (ofExponents [0, 0]) [ofExponents [1, 0], ofExponents [0, 1]] 0
    (by decide +kernel)).2
  rcases hm : a.setConservedRate (ofExponents [0, 0]) [ofExponents [1, 0], ofExponents [0, 1]] 0 with e | m'
  · obtain ⟨x, hx, hx'⟩ := h.1 ⟨e, hm⟩
    have key : ∀ x ∈ [ofExponents [1, 0], ofExponents [0, 1]], x ∈ a.relax.map Prod.fst := by decide +kernel
    exact absurd (key x hx) hx'
  · exact ⟨m', rfl⟩

end CollisionExample

end Lbm
