/-
C54, continued: the equilibrium of cumulant-based methods is the Maxwellian; sets of cumulants for which the collision is defined.
-/
import Verif.Props.CumulantMethod

namespace Lbm

/-! ### Cumulants of a Gaussian, algebraically -/

namespace Cumulants

open Shuffle

variable {D : ℕ}

/-- `a` on the word of one letter `x` -/
def letter (x : Fin D) (a : ℝ) : Shuffle (Fin D) ℝ := fun W => if W = [x] then a else 0

theorem d_letter (x y : Fin D) (a : ℝ) : d y (letter x a) = cst (if y = x then a else 0) := by
  apply ext'
  intro W
  simp only [d_apply, letter, cst, List.cons.injEq]
  by_cases h : y = x <;> by_cases h' : W = [] <;> simp [h, h']

theorem blockIndex_cons (y : Fin D) (W : List (Fin D)) : blockIndex (y :: W) = blockIndex W + Pi.single y 1 := by
  funext i
  simp only [blockIndex, List.count_cons, Pi.add_apply, Pi.single_apply]
  by_cases h : y = i
  · simp [h]
  · simp [h, Ne.symm h]

/-- product of a symmetric function with a letter: one letter of the word is removed in all ways -/
theorem wordFun_mul_letter (m : (Fin D → ℕ) → ℝ) (x : Fin D) (a : ℝ) (W : List (Fin D)) :
    (wordFun m * letter x a) W = a * (blockIndex W x : ℝ) * m (blockIndex W - Pi.single x 1) := by
  induction W generalizing m with
  | nil => simp [letter, blockIndex]
  | cons y W ih =>
    have hd : d y (wordFun m) = wordFun fun i => m (i + Pi.single y 1) := by
      apply ext'
      intro W
      simp only [d_apply, wordFun, blockIndex_cons]
    rw [mul_cons, hd, ih, d_letter, Shuffle.mul_comm', cst_mul, blockIndex_cons]
    by_cases h : y = x
    · subst h
      rw [if_pos rfl]
      have e1 : blockIndex W + Pi.single y 1 - Pi.single y 1 = blockIndex W := by
        funext i; simp
      rw [e1]
      simp only [Pi.add_apply, Pi.single_eq_same, wordFun, Nat.cast_add, Nat.cast_one]
      rcases Nat.eq_zero_or_pos (blockIndex W y) with h0 | h0
      · rw [h0]; simp
      · have e2 : blockIndex W - Pi.single y 1 + Pi.single y 1 = blockIndex W := by
          funext i
          simp only [Pi.add_apply, Pi.sub_apply, Pi.single_apply]
          split
          · rename_i h; subst h; omega
          · rfl
        rw [e2]; ring
    · rw [if_neg h]
      have e : blockIndex W - Pi.single x 1 + Pi.single y 1 = blockIndex W + Pi.single y 1 - Pi.single x 1 := by
        funext i
        simp only [Pi.add_apply, Pi.sub_apply, Pi.single_apply]
        split_ifs with h1 h2
        · exact absurd (h2.symm.trans h1) h
        all_goals rfl
      rw [e]
      simp [Pi.single_apply, Ne.symm h]

/-- central moments of a Gaussian -/
noncomputable def gaussFamily (rho c : ℝ) (e : Fin D → ℕ) : ℝ := rho * ∏ i, gaussMoment 0 c (e i)

theorem gaussMoment_succ (c : ℝ) (n : ℕ) : gaussMoment (0 : ℝ) c (n + 1) = c * n * gaussMoment 0 c (n - 1) := by
  cases n with
  | zero => simp [gaussMoment]
  | succ n => rw [gaussMoment, Nat.add_sub_cancel]; push_cast; ring

theorem gaussProd_succ (c : ℝ) (e : Fin D → ℕ) (x : Fin D) : ∏ i, gaussMoment 0 c ((e + Pi.single x 1 : Fin D → ℕ) i) =
    c * (e x : ℝ) * ∏ i, gaussMoment 0 c ((e - Pi.single x 1 : Fin D → ℕ) i) := by
  rw [← Finset.mul_prod_erase Finset.univ _ (Finset.mem_univ x)]
  conv_rhs => rw [← Finset.mul_prod_erase Finset.univ _ (Finset.mem_univ x)]
  simp only [Pi.add_apply, Pi.sub_apply, Pi.single_eq_same]
  rw [gaussMoment_succ, mul_assoc (c * (e x : ℝ))]
  congr 2
  refine Finset.prod_congr rfl fun i hi => ?_
  rw [Pi.single_eq_of_ne (Finset.ne_of_mem_erase hi)]
  rfl

/-- cumulants of a centred Gaussian -/
noncomputable def gaussCumulant (rho c : ℝ) (e : Fin D → ℕ) : ℝ :=
  if e = 0 then Real.log rho else if ∃ i, e = Pi.single i 2 then c else 0

theorem d_gaussCumulant (rho c : ℝ) (x : Fin D) : d x (wordFun (gaussCumulant rho c)) = letter x c := by
  apply ext'
  intro W
  simp only [d_apply, wordFun, letter, gaussCumulant]
  have h0 : blockIndex (x :: W) ≠ 0 := by
    intro h
    have := congrFun h x
    simp [blockIndex] at this
  rw [if_neg h0]
  have : (∃ i, blockIndex (x :: W) = Pi.single i 2) ↔ W = [x] := by
    constructor
    · rintro ⟨i, h⟩
      have hx := congrFun h x
      have hix : i = x := by
        by_contra hne
        rw [Pi.single_eq_of_ne (fun h' => hne h'.symm)] at hx
        simp [blockIndex] at hx
      subst hix
      rw [blockIndex_cons] at h
      have hW : ∀ y ∈ W, y = i := by
        intro y hy
        by_contra hne
        have := congrFun h y
        simp only [Pi.add_apply, Pi.single_eq_of_ne hne, add_zero] at this
        exact (List.count_pos_iff.2 hy).ne' this
      have hc := congrFun h i
      simp only [Pi.add_apply, Pi.single_eq_same, blockIndex] at hc
      rw [List.eq_replicate_of_mem hW, List.count_replicate_self] at hc
      rw [List.eq_replicate_of_mem hW, show W.length = 1 by omega]
      rfl
    · rintro rfl
      refine ⟨x, ?_⟩
      funext j
      by_cases h : x = j
      · subst h; simp [blockIndex]
      · simp [blockIndex, h, Pi.single_apply, Ne.symm h]
  simp only [this]

/-- the cumulants of a family of Gaussian moments -/
theorem cumulant_gaussFamily {rho : ℝ} (hr : 0 < rho) (c : ℝ) (e : Fin D → ℕ) :
    cumulantOfRawMoments e (gaussFamily rho c) = gaussCumulant rho c e := by
  have hM : ∀ n, wordFun (gaussFamily rho c : (Fin D → ℕ) → ℝ) = compose (fun _ => rho) (wordFun (gaussCumulant rho c)) n := by
    intro n
    refine compose_unique (fun _ => rho) (wordFun (gaussCumulant rho c)) (fun _ => wordFun (gaussFamily rho c)) (fun _ => ?_) (fun _ x => ?_) n
    · simp [gaussFamily, gaussMoment]
    · rw [d_gaussCumulant]
      apply ext'
      intro W
      rw [wordFun_mul_letter, d_apply, wordFun, blockIndex_cons, gaussFamily, gaussFamily, gaussProd_succ]
      ring
  have hraw : ∀ i : Fin D → ℕ, rawMomentOfCumulants i (gaussCumulant rho c) = gaussFamily rho c i := by
    intro i
    rw [rawMomentOfCumulants, transform_compose]
    have h0 : (fun n => expDeriv n (gaussCumulant rho c (0 : Fin D → ℕ))) = fun _ => rho := by
      funext n
      simp [expDeriv, gaussCumulant, Real.exp_log hr]
    rw [h0, ← hM 0]
    show gaussFamily rho c (blockIndex _) = _
    rw [blockIndex_perm (List.reverse_perm _), blockIndex_partitionList]
  have := C39_cumulant_of_moments (gaussCumulant rho c) e
  rwa [show (fun i => rawMomentOfCumulants i (gaussCumulant rho c)) = gaussFamily rho c from funext hraw] at this

end Cumulants

namespace CumulantMethod

open Matrix CumulantTransform Continuous Cumulants

variable {D : ℕ} {S : Stencil D}

/-- The transform of the central moments of the Maxwellian gives its cumulants. -/
theorem maxwellian_cumulant {rho : ℝ} (hr : 0 < rho) (u : Fin D → ℝ) {c : ℝ} (hc : 0 < c) (e : Fin D → ℕ) :
    cumulantFromCentralMoments rho u (continuousCentralMoment (maxwellian rho u c) u) e =
      rho * continuousCumulant (maxwellian rho u c) e := by
  have hfam : continuousCentralMoment (maxwellian rho u c) u = gaussFamily rho c := by
    funext e
    rw [(C49_central_moment rho u u hc e).2]
    simp [gaussFamily]
  have h0 : gaussFamily rho c (0 : Fin D → ℕ) = rho := by simp [gaussFamily, gaussMoment]
  rw [hfam, C51_forward rho u _ (by rw [h0]; exact hr.ne'), cumulant_gaussFamily hr]
  congr 1
  obtain ⟨c0, c1, c2, c3⟩ := C49_cumulant hr u hc
  by_cases e0 : e = 0
  · subst e0
    rw [c0, gaussCumulant, if_pos rfl, Finset.sum_eq_zero fun j _ => if_neg fun h => single_ne j h.symm, zero_add]
  rw [gaussCumulant, if_neg e0]
  by_cases e1 : ∃ i, e = Pi.single i 1
  · obtain ⟨i, rfl⟩ := e1
    have : ¬ ∃ j, (Pi.single i 1 : Fin D → ℕ) = Pi.single j 2 := by
      rintro ⟨j, h⟩
      have := congrFun h i
      rw [Pi.single_eq_same, Pi.single_apply] at this
      split at this <;> omega
    rw [c1, if_neg this, add_zero, Finset.sum_eq_single i]
    · simp
    · intro j _ hj; exact if_neg fun h => hj (single_inj h).symm
    · simp
  have hs : (∑ i, if e = Pi.single i 1 then u i else 0) = 0 := Finset.sum_eq_zero fun j _ => if_neg fun h => e1 ⟨j, h⟩
  rw [hs, zero_add]
  by_cases e2 : ∃ i, e = Pi.single i 2
  · rw [if_pos e2]
    obtain ⟨i, rfl⟩ := e2
    rw [c2]
  · rw [if_neg e2, c3 e e0 (fun i h => e1 ⟨i, h⟩) fun i h => e2 ⟨i, h⟩]

namespace Method

/-- C54: with the cumulants of the continuous Maxwellian as equilibrium values, the equilibrium populations are exactly those whose
central moments are the ones of the Maxwellian, for regular and zero-centred storage: a cumulant method and a central moment method
have the same equilibrium. -/
theorem C54_maxwellian (hD1 : 1 ≤ D) (hD : D ≤ 3) (m : Method S) {r : (Fin S.Q → ℝ) → Fin S.Q → ℝ} (hr : m.getEquilibrium = .ok r)
    {w : Fin S.Q → ℝ} (hw : m.Storage w) (hp : ∀ p ∈ m.cumulants, Spec.InDimension D p) (f : Fin S.Q → ℝ) (hρ : 0 < m.rho f)
    {c : ℝ} (hc : 0 < c) (hceq : ∀ i : Fin S.Q, m.ceq f i = ((m.cumulants.getD i 0).expand.map fun s =>
      (s.1 : ℝ) * (m.rho f * continuousCumulant (maxwellian (m.rho f) (m.vel f) c) fun a => s.2.getD a 0)).sum) :
    (∀ e ∈ requiredCentralMoments D (Chimera.extractMonomials D m.cumulants), Spec.momentAbout S (r f + w) (m.vel f) (toIndex D e) =
      continuousCentralMoment (maxwellian (m.rho f) (m.vel f) c) (m.vel f) (toIndex D e)) ∧
    ∀ g : Fin S.Q → ℝ, (∀ e ∈ requiredCentralMoments D (Chimera.extractMonomials D m.cumulants),
      Spec.momentAbout S g (m.vel f) (toIndex D e) =
        continuousCentralMoment (maxwellian (m.rho f) (m.vel f) c) (m.vel f) (toIndex D e)) → g = r f + w := by
  obtain ⟨t, ht, hdet, hcm⟩ := collide_central hD1 hD hr hw f
  have hreq : t.required = requiredCentralMoments D (Chimera.extractMonomials D m.cumulants) := by
    rw [(construct_ok ht).2.1, (construct_ok ht).1]
  rw [← hreq]
  have h1 : ∀ e ∈ t.required, Spec.momentAbout S (r f + w) (m.vel f) (toIndex D e) =
      continuousCentralMoment (maxwellian (m.rho f) (m.vel f) c) (m.vel f) (toIndex D e) := by
    intro e he
    rw [hcm e he, forceTerms_off m (Or.inl rfl), add_zero]
    have hpost : (fun i => m.pre t w false f i + (fun _ => (1 : ℝ)) i * (m.ceq f i - m.pre t w false f i)) =
        forwardTransform D t (m.rho f) (m.vel f) fun e =>
          continuousCentralMoment (maxwellian (m.rho f) (m.vel f) c) (m.vel f) (toIndex D e) := by
      funext i
      unfold forwardTransform
      simp only [toIndex_ofFn]
      rw [show (fun j : Fin S.Q => cumulantFromCentralMoments (m.rho f) (m.vel f)
          (fun i => continuousCentralMoment (maxwellian (m.rho f) (m.vel f) c) (m.vel f) i) (toIndex D (t.exponents.getD j []))) =
        fun j : Fin S.Q => (fun e => m.rho f * continuousCumulant (maxwellian (m.rho f) (m.vel f) c) (toIndex D e))
          (t.exponents.getD j []) from funext fun j => maxwellian_cumulant hρ _ hc _]
      rw [monoToPoly_mulVec hD ht hp fun e => m.rho f * continuousCumulant (maxwellian (m.rho f) (m.vel f) c) (toIndex D e),
        one_mul, add_sub_cancel, hceq]
      congr 1
      refine List.map_congr_left fun s _ => ?_
      have e : toIndex D (s.2.take D) = fun a : Fin D => s.2.getD a 0 := by
        funext a
        simp only [toIndex, List.getD_eq_getElem?_getD]
        rw [List.getElem?_take_of_lt a.isLt]
      simp only [e]
    rw [hpost, C51_transform_backward_forward hD ht _ hρ.ne' _ _ _ ?_ e he]
    rw [toIndex_zero, (C49_central_moment _ _ _ hc _).2]
    simpa [gaussMoment] using hρ
  refine ⟨h1, fun g hg => ?_⟩
  exact populations_ext ht (hdet (m.vel f)) fun e he => by rw [hg e he, h1 e he]

end Method

/-! ### The sets of cumulants offered by the library -/

/-- a predefined stencil as a stencil of the model -/
def stencilOf (st : List (List ℤ)) (D : ℕ) : Stencil D := ⟨st.length, fun q a => (st.get q).getD a 0⟩

theorem at_expand (p : PExpr) (x : List ℤ) (D : ℕ) (hD : D ≤ 3) (hp : Spec.InDimension D p) :
    ((p.at' x : ℤ) : ℝ) = (p.expand.map fun t => (t.1 : ℝ) * ∏ a : Fin D, (x.getD a 0 : ℝ) ^ t.2.getD a 0).sum := by
  have h := (PExpr.expand_spec (R := ℤ) p).2 fun i => x.getD i 0
  have hl := (PExpr.expand_spec (R := ℤ) p).1
  rw [PExpr.at', ← h, PExpr.evalM, Spec.polyEval]
  unfold Spec.InDimension at hp
  generalize p.expand = l at hl hp
  induction l with
  | nil => simp
  | cons t l ih =>
    have ih := ih (fun s hs => hl s (List.mem_cons_of_mem _ hs)) fun s hs => hp s (List.mem_cons_of_mem _ hs)
    simp only [List.map_cons, List.sum_cons, Int.cast_add] at ih ⊢
    rw [ih]
    congr 1
    have h3 := hl t List.mem_cons_self
    have hz := hp t List.mem_cons_self
    obtain ⟨n, e⟩ := t
    match e, h3 with
    | [a, b, c], _ =>
      have h0 := hz 0
      have h1 := hz 1
      have h2 := hz 2
      simp only [List.getD_cons_zero, List.getD_cons_succ] at h0 h1 h2
      interval_cases D
      · simp [Spec.monomial, h0, h1, h2]
      · simp [Spec.monomial, h1, h2]
      · simp [Spec.monomial, h2, Fin.prod_univ_two]
      · simp [Spec.monomial, Fin.prod_univ_three]; left; ring

theorem sum_list_map {α : Type} {n : ℕ} (l : List α) (g : Fin n → α → ℝ) :
    ∑ j, (l.map (g j)).sum = (l.map fun s => ∑ j, g j s).sum := by
  induction l with
  | nil => simp
  | cons a l ih => simp [Finset.sum_add_distrib, ih]

/-- Moments that determine the populations have monomials that do. -/
theorem det_offered {st : List (List ℤ)} {D : ℕ} (hD : D ≤ 3) {ps : List PExpr} (hu : Spec.Unisolvent st ps)
    (hp : ∀ p ∈ ps, Spec.InDimension D p) {t : Transform st.length} (ht : construct D st.length ps = .ok t) :
    (Method.pdfsToCentral (stencilOf st D) (sortExponents t.required) 0).det ≠ 0 := by
  intro h0
  obtain ⟨g, hg, hg0⟩ := exists_mulVec_eq_zero_iff.2 h0
  change Fin st.length → ℝ at g
  obtain ⟨-, -, hmem, -, -⟩ := C51_constructor ht
  have hl : (sortExponents t.required).length = st.length := by rw [(sortExponents_perm _).length_eq, (construct_ok ht).2.2.2.2.1]
  have hz : ∀ e ∈ t.exponents, Spec.momentAbout (stencilOf st D) g 0 (toIndex D e) = 0 := by
    intro e he
    obtain ⟨i, hi, -⟩ := exists_position hl ((sortExponents_perm _).mem_iff.2 ((hmem e).2 he))
    have := (pdfsToCentral_mulVec (S := stencilOf st D) (sortExponents t.required) 0 g i).symm.trans (congrFun hg0 i)
    rw [← hi]
    exact this
  obtain ⟨f, -, hun⟩ := hu.2 ℝ 0
  have h1 : ∀ i, ∑ j, ((ps.get i).at' (st.get j) : ℝ) * g j = 0 := by
    intro i
    have hmp : ps.get i ∈ ps := List.get_mem ps i
    have : ∀ j, ((ps.get i).at' (st.get j) : ℝ) * g j = ((ps.get i).expand.map fun s =>
        (s.1 : ℝ) * (g j * ∏ a : Fin D, ((st.get j).getD a 0 : ℝ) ^ s.2.getD a 0)).sum := by
      intro j
      rw [at_expand _ _ D hD (hp _ hmp), ← List.sum_map_mul_right]
      congr 1
      exact List.map_congr_left fun s _ => by ring
    rw [Finset.sum_congr rfl fun j _ => this j, sum_list_map]
    apply List.sum_eq_zero
    intro y hy
    obtain ⟨s, hs, rfl⟩ := List.mem_map.1 hy
    rw [← Finset.mul_sum]
    have hin : s.2.take D ∈ t.exponents := by
      rw [(construct_ok ht).1, Chimera.extractMonomials, List.mem_dedup, List.mem_flatMap]
      exact ⟨_, hmp, List.mem_map.2 ⟨s, List.mem_filter.2 ⟨hs, by simpa using (PExpr.collected_expand _).2 s hs⟩, rfl⟩⟩
    have := hz _ hin
    have e : toIndex D (s.2.take D) = fun a : Fin D => s.2.getD a 0 := by
      funext a
      simp only [toIndex, List.getD_eq_getElem?_getD]
      rw [List.getElem?_take_of_lt a.isLt]
    rw [e] at this
    have h' : ∑ j, g j * ∏ a : Fin D, ((st.get j).getD a 0 : ℝ) ^ s.2.getD a 0 = 0 := by
      refine Eq.trans ?_ this
      show _ = ∑ j : Fin st.length, g j * ∏ a : Fin D, (((st.get j).getD a 0 : ℤ) - (0 : Fin D → ℝ) a) ^ s.2.getD a 0
      simp only [Pi.zero_apply, sub_zero]
    rw [h', mul_zero]
  refine hg ?_
  exact (hun g h1).trans (hun 0 fun i => by simp).symm

/-- what is checked of the offered sets: dimension, and the presence of `1` and of the variables -/
def setCheck (D Q : ℕ) (ps : List PExpr) : Bool :=
  (ps.all fun p => p.expand.all fun t => (t.2.drop D).all (· == 0)) && ps.length == Q &&
    (ps.any fun p => p.expand == [(1, [0, 0, 0])]) &&
    (List.range D).all fun a => ps.any fun p => p.expand == [(1, (List.replicate 3 0).set a 1)]

theorem setCheck_default : ∀ e ∈ Tables.predefined, ∀ ps ∈ defaultMomentSet (e.2.2.headD []).length e.2.2.length,
    setCheck (e.2.2.headD []).length e.2.2.length ps = true := by decide +kernel

theorem setCheck_cascaded : ∀ e ∈ Tables.predefined, ∀ g ∈ cascadedMomentSets e.2.2,
    setCheck (e.2.2.headD []).length e.2.2.length g.flatten = true := by decide +kernel

theorem predefined_dim : ∀ e ∈ Tables.predefined, 1 ≤ (e.2.2.headD []).length ∧ (e.2.2.headD []).length ≤ 3 := by decide +kernel

theorem setCheck_spec {D Q : ℕ} {ps : List PExpr} (h : setCheck D Q ps = true) : (∀ p ∈ ps, Spec.InDimension D p) ∧
    (∃ i0 : Fin Q, (ps.getD i0 0).expand = [(1, [0, 0, 0])]) ∧
      ∃ i1 : Fin D → Fin Q, ∀ a : Fin D, (ps.getD (i1 a) 0).expand = [(1, (List.replicate 3 0).set a 1)] := by
  simp only [setCheck, Bool.and_eq_true, List.all_eq_true, List.any_eq_true, beq_iff_eq] at h
  obtain ⟨⟨⟨h1, h2⟩, h3⟩, h4⟩ := h
  have hpos : ∀ {l : MPoly ℤ}, (∃ p ∈ ps, p.expand = l) → ∃ i : Fin Q, (ps.getD i 0).expand = l := by
    rintro l ⟨p, hp, rfl⟩
    obtain ⟨i, hi, rfl⟩ := List.getElem_of_mem hp
    exact ⟨⟨i, by omega⟩, by simp only; rw [List.getD_eq_getElem _ _ hi]⟩
  refine ⟨fun p hp t ht k hk => ?_, hpos h3, ?_⟩
  · have := h1 p hp t ht
    rw [List.getD_eq_getElem?_getD]
    rcases hx : t.2[k]? with _ | x
    · rfl
    · refine this x ?_
      rw [List.mem_iff_getElem?]
      exact ⟨k - D, by rw [List.getElem?_drop, Nat.add_sub_cancel' hk, hx]⟩
  · have : ∀ a : Fin D, ∃ i : Fin Q, (ps.getD i 0).expand = [(1, (List.replicate 3 0).set a 1)] :=
      fun a => hpos (h4 a (List.mem_range.2 a.isLt))
    choose i1 hi1 using this
    exact ⟨i1, hi1⟩

/-- C54: on every predefined stencil except D3Q15, cumulant methods with the default set or the cascaded set have a collision rule for
all rates, and the hypotheses on the set in the theorems above hold. For D3Q15 there is none (`C51_offered_sets`). -/
theorem C54_offered_sets : ∀ e ∈ Tables.predefined, e.1 ≠ "D3Q15" → ∀ ps, CentralMoments.Offered e.2.2 ps →
    ∀ m : Method (stencilOf e.2.2 (e.2.2.headD []).length), m.cumulants = ps →
    (m.zeroCentered = true → m.deviationOnly = false ∧ m.background.isSome) →
    (∀ d inc, ∃ r, m.collisionRule d inc = .ok r) ∧ (∀ p ∈ m.cumulants, Spec.InDimension (e.2.2.headD []).length p) ∧
      ∃ i0 i1, m.HasConserved i0 i1 := by
  intro e he hne ps ho m hm hz
  obtain ⟨b1, b2, -⟩ := C47_moment_sets_are_bases e he
  obtain ⟨s1, s2⟩ := C51_offered_sets e he
  have hb : Spec.Unisolvent e.2.2 ps ∧ (∃ t, construct (e.2.2.headD []).length e.2.2.length ps = .ok t) ∧
      setCheck (e.2.2.headD []).length e.2.2.length ps = true := by
    rcases ho with h | ⟨g, h, rfl⟩
    · exact ⟨b1 _ h, by have := s1 _ h; rwa [if_neg hne] at this, setCheck_default e he _ h⟩
    · exact ⟨b2 _ h, by have := s2 _ h; rwa [if_neg hne] at this, setCheck_cascaded e he _ h⟩
  obtain ⟨hu, ⟨t, ht⟩, hck⟩ := hb
  obtain ⟨hp, ⟨i0, h0⟩, i1, h1⟩ := setCheck_spec hck
  subst hm
  refine ⟨fun d inc => (Method.C54_defined_iff m d inc).2 ⟨hz, t, ht, ?_⟩, hp, i0, i1, ⟨h0, h1⟩⟩
  exact det_offered (predefined_dim e he).2 hu hp ht

/-- The Maxwellian cumulants fulfil the hypotheses of `C54_mass_momentum` on the equilibrium values. -/
theorem C54_maxwellian_low (m : Method S) (f : Fin S.Q → ℝ) (hρ : 0 < m.rho f) {c : ℝ} (hc : 0 < c)
    (hceq : ∀ i : Fin S.Q, m.ceq f i = ((m.cumulants.getD i 0).expand.map fun s =>
      (s.1 : ℝ) * (m.rho f * continuousCumulant (maxwellian (m.rho f) (m.vel f) c) fun a => s.2.getD a 0)).sum)
    (hD : D ≤ 3) {i0 : Fin S.Q} {i1 : Fin D → Fin S.Q} (h : m.HasConserved i0 i1) :
    m.ceq f i0 = m.rho f * Real.log (m.rho f) ∧ ∀ a, m.ceq f (i1 a) = m.rho f * m.vel f a := by
  obtain ⟨c0, c1, -, -⟩ := C49_cumulant hρ (m.vel f) hc
  constructor
  · rw [hceq, h.mass]
    have : (fun a : Fin D => ([0, 0, 0] : List ℕ).getD a 0) = 0 := by
      funext a
      interval_cases D
      · exact a.elim0
      all_goals fin_cases a <;> rfl
    simp only [List.map_cons, List.map_nil, List.sum_cons, List.sum_nil, this, c0]
    simp
  · intro a
    rw [hceq, h.momentum]
    have : (fun b : Fin D => (((List.replicate 3 0).set a 1 : List ℕ)).getD b 0) = Pi.single a 1 := by
      interval_cases D
      · exact a.elim0
      all_goals (fin_cases a <;> (funext b; fin_cases b <;> rfl))
    simp only [List.map_cons, List.map_nil, List.sum_cons, List.sum_nil, this, c1]
    simp

/-- a cumulant method on D2Q9 with the Maxwellian equilibrium and a force in `x`-direction -/
noncomputable def exampleMethod : Method (stencilOf Tables.D2Q9_walberla 2) where
  cumulants := (defaultMomentSet 2 9).getD []
  rho := fun f => ∑ q, f q
  vel := fun f a => (∑ q, ((stencilOf Tables.D2Q9_walberla 2).c q a : ℝ) * f q + ![1, 0] a / 2) / ∑ q, f q
  ceq := fun f i => ((((defaultMomentSet 2 9).getD []).getD i 0).expand.map fun s =>
    (s.1 : ℝ) * ((∑ q, f q) * continuousCumulant (maxwellian (∑ q, f q)
      (fun a => (∑ q, ((stencilOf Tables.D2Q9_walberla 2).c q a : ℝ) * f q + ![1, 0] a / 2) / ∑ q, f q) (1 / 3)) fun a => s.2.getD a 0)).sum
  zeroCentered := false
  deviationOnly := false
  background := none
  force := some (.first ![1, 0])

/-- all hypotheses hold for it: for arbitrary rates there is a collision rule, and the populations `1, …, 1` keep their mass 9 and get
momentum `(1, 0)` from the force -/
example (d : Fin 9 → ℝ) : ∃ r, exampleMethod.collisionRule d true = .ok r ∧ ∑ q, r (fun _ => 1) q = 9 ∧
    ∑ q, ((stencilOf Tables.D2Q9_walberla 2).c q 0 : ℝ) * r (fun _ => 1) q = 1 := by
  have hmem : ("D2Q9", "walberla", Tables.D2Q9_walberla) ∈ Tables.predefined := by decide +kernel
  obtain ⟨ps, hps, hlen⟩ : ∃ ps, defaultMomentSet 2 9 = some ps ∧ ps.length = 9 := ⟨_, rfl, by decide +kernel⟩
  have hcum : exampleMethod.cumulants = ps := by show (defaultMomentSet 2 9).getD [] = ps; rw [hps]; rfl
  obtain ⟨h1, h2, i0, i1, h3⟩ := C54_offered_sets _ hmem (by decide) ps (Or.inl hps) exampleMethod hcum (fun h => by cases h)
  obtain ⟨r, hr⟩ := h1 d true
  have hsum : ∑ q : Fin 9, (1 : ℝ) = 9 := by norm_num [Finset.sum_const]
  have hpos : 0 < exampleMethod.rho fun _ => 1 := by
    show (0 : ℝ) < ∑ q : Fin 9, (1 : ℝ)
    rw [hsum]; norm_num
  obtain ⟨l0, l1⟩ := C54_maxwellian_low exampleMethod (fun _ => 1) hpos (c := 1 / 3) (by norm_num) (fun _ => rfl) (by decide) h3
  obtain ⟨k0, k1⟩ := exampleMethod.C54_force (by decide) (by decide) d hr (w := 0) (by unfold Method.Storage; rfl) h2 h3 (fun _ => 1)
    hpos (by simp [exampleMethod]) l0 l1 ![1, 0] (Or.inr ⟨Or.inr (Or.inl rfl), fun a => by
      have : (exampleMethod.rho fun _ => 1) ≠ 0 := hpos.ne'
      show _ * ((_ + _) / (exampleMethod.rho fun _ => 1)) = _
      rw [mul_div_cancel₀ _ this]
      simp⟩)
  refine ⟨r, hr, k0.trans hsum, ?_⟩
  rw [k1 0]
  have : ∑ q : Fin 9, (((stencilOf Tables.D2Q9_walberla 2).c q 0 : ℤ) : ℝ) * 1 = 0 := by
    have : ∑ q : Fin 9, (stencilOf Tables.D2Q9_walberla 2).c q 0 = 0 := by decide +kernel
    simp only [mul_one]
    exact_mod_cast this
  exact (congrArg (· + _) this).trans (by simp)

/-- a refused force model -/
example : exampleMethod.setForceModel .none = .error .valueError := rfl

end CumulantMethod
end Lbm
