/-
Property theorem C47: the moment sets offered for the stencils are bases, the orthogonal ones are orthogonal, the
cascaded groups are ordered as documented.
-/
import Verif.MomentSets
import Verif.MomentCertificates
import Verif.Props.Aliasing
import Verif.Props.StencilProps
import Mathlib.Data.List.NodupEquivFin
import Mathlib.Algebra.BigOperators.Fin
import Mathlib.Algebra.Field.Basic
import Mathlib.Algebra.CharZero.Defs
import Mathlib.Data.Int.Cast.Lemmas
import Mathlib.Tactic.FieldSimp

namespace Lbm

/-! ### Specification -/

namespace Spec

/-- The polynomials determine, and can prescribe arbitrarily, the populations on the velocities: every vector of moment
values belongs to exactly one population vector. -/
def Unisolvent (st : List (List ℤ)) (ps : List PExpr) : Prop :=
  ps.length = st.length ∧ ∀ (K : Type) [Field K] [CharZero K] (m : Fin ps.length → K),
    ∃! f : Fin st.length → K, ∀ i, ∑ j, ((ps.get i).at' (st.get j) : K) * f j = m i

end Spec

/-! ### The certificates -/

/-- combination of the rows of a matrix with `n` columns -/
def lincomb (n : ℕ) : List ℤ → List (List ℤ) → List ℤ
  | a :: r, v :: A => List.zipWith (fun x s => a * x + s) v (lincomb n r A)
  | _, _ => List.replicate n 0

/-- `d` times the unit matrix -/
def scaledUnit (n : ℕ) (d : ℤ) : List (List ℤ) :=
  (List.range n).map fun i => (List.range n).map fun j => if i = j then d else 0

/-- the check done by the kernel -/
def certOk (st : List (List ℤ)) (ps : List PExpr) (cert : Certificates.Certificate) : Bool :=
  (cert.1 != 0) && (ps.length == st.length) && (cert.2.2.length == st.length) &&
  (cert.2.2.all fun r => r.length == st.length) &&
  decide ((ps.map fun p => st.map fun c => p.at' c) = cert.2.1) &&
  decide ((cert.2.2.map fun r => lincomb st.length r cert.2.1) = scaledUnit st.length cert.1) &&
  decide ((cert.2.1.map fun r => lincomb st.length r cert.2.2) = scaledUnit st.length cert.1)

/-- entry of a matrix -/
def ent (A : List (List ℤ)) (i j : ℕ) : ℤ := (A.getD i []).getD j 0

theorem ent_map {α : Type} (l : List α) (f : α → List ℤ) (i j : ℕ) (h : i < l.length) :
    ent (l.map f) i j = (f l[i]).getD j 0 := by
  rw [ent, List.getD_eq_getElem (l.map f) _ (by simpa using h), List.getElem_map]

theorem getD_map {α : Type} (l : List α) (f : α → ℤ) (j : ℕ) (h : j < l.length) :
    (l.map f).getD j 0 = f l[j] := by
  rw [List.getD_eq_getElem _ _ (by simpa using h), List.getElem_map]

theorem lincomb_spec (n : ℕ) (r : List ℤ) (A : List (List ℤ)) (hA : ∀ v ∈ A, v.length = n) :
    (lincomb n r A).length = n ∧
    ∀ j, j < n → ∀ k, r.length = k → A.length = k →
      (lincomb n r A).getD j 0 = ∑ i : Fin k, r.getD i 0 * ent A i j := by
  induction r generalizing A with
  | nil =>
    refine ⟨by simp [lincomb], ?_⟩
    rintro j hj k rfl h
    rw [lincomb, List.getD_eq_getElem _ _ (by simpa using hj)]
    · simp
    · simp
  | cons a r ih =>
    cases A with
    | nil =>
      refine ⟨by simp [lincomb], ?_⟩
      rintro j hj k rfl h
      simp at h
    | cons v A =>
      obtain ⟨h1, h2⟩ := ih A fun v hv => hA v (by simp [hv])
      have hv := hA v (by simp)
      have hl : (lincomb n (a :: r) (v :: A)).length = n := by simp [lincomb, h1, hv]
      refine ⟨hl, ?_⟩
      rintro j hj k rfl h
      rw [List.getD_eq_getElem _ _ (by rw [hl]; exact hj)]
      simp only [lincomb, List.getElem_zipWith, List.length_cons]
      rw [Fin.sum_univ_succ]
      have := h2 j hj r.length rfl (by simpa using h)
      rw [List.getD_eq_getElem _ _ (by rw [h1]; exact hj)] at this
      rw [this]
      congr 1
      have e : ent (v :: A) ((0 : Fin (r.length + 1)) : ℕ) j = v.getD j 0 := rfl
      rw [e, List.getD_eq_getElem v _ (by rw [hv]; exact hj)]
      rfl

theorem product_spec {n : ℕ} {d : ℤ} {A B : List (List ℤ)} (hA : A.length = n) (hB : B.length = n)
    (hAr : ∀ v ∈ A, v.length = n) (hBr : ∀ v ∈ B, v.length = n)
    (h : (B.map fun r => lincomb n r A) = scaledUnit n d) (i j : Fin n) :
    ∑ k : Fin n, ent B i k * ent A k j = if i = j then d else 0 := by
  have hi : (i : ℕ) < B.length := by rw [hB]; exact i.isLt
  have hBi : (B.getD i []).length = n := by
    rw [List.getD_eq_getElem _ _ hi]
    exact hBr _ (List.getElem_mem hi)
  have h1 := (lincomb_spec n (B.getD i []) A hAr).2 j j.isLt n hBi hA
  have h2 := congrArg (fun M => ent M i j) h
  simp only [scaledUnit] at h2
  rw [ent_map _ _ _ _ hi, ent_map _ _ _ _ (by simp), getD_map _ _ _ (by simp), List.getElem_range,
    List.getElem_range] at h2
  rw [List.getD_eq_getElem _ _ hi] at h1
  rw [show (if i = j then d else 0) = if (i : ℕ) = j then d else 0 by simp [Fin.ext_iff], ← h2, h1]
  refine Finset.sum_congr rfl fun k _ => ?_
  rw [ent, List.getD_eq_getElem _ _ hi]

theorem unisolvent_of_cert {st : List (List ℤ)} {ps : List PExpr} {cert : Certificates.Certificate}
    (h : certOk st ps cert = true) : Spec.Unisolvent st ps := by
  unfold certOk at h
  simp only [Bool.and_eq_true, bne_iff_ne, ne_eq, beq_iff_eq, decide_eq_true_eq, List.all_eq_true] at h
  obtain ⟨⟨⟨⟨⟨⟨hd, hl⟩, hB⟩, hBr⟩, hA⟩, h1⟩, h2⟩ := h
  refine ⟨hl, fun K _ _ m => ?_⟩
  obtain ⟨d, A, B⟩ := cert
  dsimp only at hd hB hBr hA h1 h2
  have hAl : A.length = st.length := by rw [← hA, List.length_map, hl]
  have hAr : ∀ v ∈ A, v.length = st.length := by
    intro v hv
    rw [← hA] at hv
    obtain ⟨p, -, rfl⟩ := List.mem_map.1 hv
    simp
  have hAe : ∀ (i : Fin ps.length) (j : Fin st.length), (ps.get i).at' (st.get j) = ent A i j := by
    intro i j
    rw [← hA, ent_map _ _ _ _ i.isLt, getD_map _ _ _ j.isLt]
    rfl
  have e1 := product_spec hAl hB hAr hBr h1
  have e2 := product_spec hB hAl hBr hAr h2
  have hdK : (d : K) ≠ 0 := by exact_mod_cast hd
  have e1K : ∀ i j : Fin st.length, ∑ k : Fin st.length, (ent B i k : K) * (ent A k j : K) = if i = j then (d : K) else 0 := by
    intro i j
    have := congrArg (fun z : ℤ => (z : K)) (e1 i j)
    push_cast at this
    exact this
  have e2K : ∀ i j : Fin st.length, ∑ k : Fin st.length, (ent A i k : K) * (ent B k j : K) = if i = j then (d : K) else 0 := by
    intro i j
    have := congrArg (fun z : ℤ => (z : K)) (e2 i j)
    push_cast at this
    exact this
  simp only [hAe]
  let m' : Fin st.length → K := fun i => m (Fin.cast hl.symm i)
  have hm : ∀ f : Fin st.length → K, (∀ i : Fin ps.length, ∑ j : Fin st.length, (ent A i j : K) * f j = m i) ↔
      ∀ i : Fin st.length, ∑ j : Fin st.length, (ent A i j : K) * f j = m' i :=
    fun f => ⟨fun h i => h (Fin.cast hl.symm i), fun h i => h (Fin.cast hl i)⟩
  simp only [hm]
  refine ⟨fun j => (d : K)⁻¹ * ∑ i : Fin st.length, (ent B j i : K) * m' i, ?_, ?_⟩
  · intro i
    calc ∑ j : Fin st.length, (ent A i j : K) * ((d : K)⁻¹ * ∑ k : Fin st.length, (ent B j k : K) * m' k)
        = (d : K)⁻¹ * ∑ k : Fin st.length, (∑ j : Fin st.length, (ent A i j : K) * (ent B j k : K)) * m' k := by
          simp only [Finset.mul_sum, Finset.sum_mul]
          rw [Finset.sum_comm]
          refine Finset.sum_congr rfl fun k _ => Finset.sum_congr rfl fun j _ => ?_
          ring
      _ = m' i := by
          simp only [e2K, ite_mul, zero_mul, Finset.sum_ite_eq, Finset.mem_univ, if_true]
          rw [← mul_assoc, inv_mul_cancel₀ hdK, one_mul]
  · intro f hf
    funext j
    have : ∑ i : Fin st.length, (ent B j i : K) * m' i = (d : K) * f j := by
      calc ∑ i : Fin st.length, (ent B j i : K) * m' i
          = ∑ i : Fin st.length, (ent B j i : K) * ∑ k : Fin st.length, (ent A i k : K) * f k := by
            refine Finset.sum_congr rfl fun i _ => ?_
            rw [← hf i]
        _ = ∑ k : Fin st.length, (∑ i : Fin st.length, (ent B j i : K) * (ent A i k : K)) * f k := by
            simp only [Finset.mul_sum, Finset.sum_mul]
            rw [Finset.sum_comm]
            refine Finset.sum_congr rfl fun k _ => Finset.sum_congr rfl fun i _ => ?_
            ring
        _ = (d : K) * f j := by
            simp only [e1K, ite_mul, zero_mul, Finset.sum_ite_eq, Finset.mem_univ, if_true]
    rw [this, ← mul_assoc, inv_mul_cancel₀ hdK, one_mul]

/-- The order of the velocities does not matter. -/
theorem unisolvent_perm {st st' : List (List ℤ)} (hn : st.Nodup) (hp : st.Perm st') {ps : List PExpr}
    (h : Spec.Unisolvent st ps) : Spec.Unisolvent st' ps := by
  refine ⟨h.1.trans hp.length_eq, fun K _ _ m => ?_⟩
  have hn' : st'.Nodup := hp.nodup_iff.1 hn
  let σ : Fin st'.length ≃ Fin st.length :=
    (List.Nodup.getEquiv st' hn').trans
      ((Equiv.subtypeEquivRight fun _ => hp.mem_iff.symm).trans (List.Nodup.getEquiv st hn).symm)
  have hσ : ∀ j, st.get (σ j) = st'.get j := by
    intro j
    have : List.Nodup.getEquiv st hn (σ j) =
        (Equiv.subtypeEquivRight fun _ => hp.mem_iff.symm) (List.Nodup.getEquiv st' hn' j) := by simp [σ]
    exact congrArg Subtype.val this
  obtain ⟨f, hf, hu⟩ := h.2 K m
  have key : ∀ g : Fin st'.length → K, (∀ i, ∑ j, ((ps.get i).at' (st'.get j) : K) * g j = m i) ↔
      ∀ i, ∑ j, ((ps.get i).at' (st.get j) : K) * g (σ.symm j) = m i := by
    intro g
    refine forall_congr' fun i => ?_
    rw [← Equiv.sum_comp σ (fun j => ((ps.get i).at' (st.get j) : K) * g (σ.symm j))]
    simp only [hσ, Equiv.symm_apply_apply]
  refine ⟨fun j => f (σ j), (key _).2 (by simpa using hf), fun g hg => ?_⟩
  funext j
  have := congrFun (hu (fun j => g (σ.symm j)) ((key g).1 hg)) (σ j)
  simpa using this

/-! ### C47 -/

/-- The certificate check for one kind of set, done for the ordering `walberla` only. -/
def checkAll (certs : List (String × Certificates.Certificate)) (sets : List (List ℤ) → Option (List PExpr)) : Bool :=
  Tables.predefined.all fun e => (e.2.1 != "walberla") || match sets e.2.2 with
    | none => true
    | some ps => certOk e.2.2 ps ((certs.lookup e.1).getD (0, [], []))

theorem walberla_exists : ∀ e ∈ Tables.predefined, ∃ e' ∈ Tables.predefined, e'.1 = e.1 ∧ e'.2.1 = "walberla" := by
  decide +kernel

theorem predefined_nodup : ∀ e ∈ Tables.predefined, e.2.2.Nodup := by decide +kernel

theorem unisolvent_of_checkAll {certs : List (String × Certificates.Certificate)}
    {sets : List (List ℤ) → Option (List PExpr)} (h : checkAll certs sets = true)
    (hs : ∀ e ∈ Tables.predefined, ∀ e' ∈ Tables.predefined, e.1 = e'.1 → sets e.2.2 = sets e'.2.2) :
    ∀ e ∈ Tables.predefined, ∀ ps ∈ sets e.2.2, Spec.Unisolvent e.2.2 ps := by
  intro e he ps hps
  obtain ⟨e', he', h1, h2⟩ := walberla_exists e he
  unfold checkAll at h
  rw [List.all_eq_true] at h
  have h3 := h e' he'
  rw [h2, hs e' he' e he h1, Option.mem_def.1 hps] at h3
  simp only [bne_self_eq_false, Bool.false_or] at h3
  exact unisolvent_perm (predefined_nodup e' he') (C13_orderings_agree e' he' e he h1) (unisolvent_of_cert h3)

theorem unisolvent_default : ∀ e ∈ Tables.predefined, ∀ ps ∈ defaultMomentSet (e.2.2.headD []).length e.2.2.length,
    Spec.Unisolvent e.2.2 ps :=
  unisolvent_of_checkAll (certs := Certificates.default) (sets := fun st => defaultMomentSet (st.headD []).length st.length)
    (by decide +kernel) (by decide +kernel)

theorem unisolvent_cascaded : ∀ e ∈ Tables.predefined, ∀ ps ∈ (cascadedMomentSets e.2.2).map List.flatten,
    Spec.Unisolvent e.2.2 ps :=
  unisolvent_of_checkAll (certs := Certificates.cascaded) (sets := fun st => (cascadedMomentSets st).map List.flatten)
    (by decide +kernel) (by decide +kernel)

theorem unisolvent_weighted : ∀ e ∈ Tables.predefined, ∀ ps ∈ (orthogonalModes e.2.2 true).map List.flatten,
    Spec.Unisolvent e.2.2 ps :=
  unisolvent_of_checkAll (certs := Certificates.orthogonal) (sets := fun st => (orthogonalModes st true).map List.flatten)
    (by decide +kernel) (by decide +kernel)

theorem unisolvent_unweighted : ∀ e ∈ Tables.predefined, ∀ ps ∈ (orthogonalModes e.2.2 false).map List.flatten,
    Spec.Unisolvent e.2.2 ps :=
  unisolvent_of_checkAll (certs := Certificates.orthogonal) (sets := fun st => (orthogonalModes st false).map List.flatten)
    (by decide +kernel) (by decide +kernel)

/-- C47: every default moment set, every cascaded set and every set of orthogonal modes the library offers for a
predefined stencil (in every ordering) is a basis: as many moments as velocities, and moment values and populations
determine each other. -/
theorem C47_moment_sets_are_bases : ∀ e ∈ Tables.predefined,
    (∀ ps ∈ defaultMomentSet (e.2.2.headD []).length e.2.2.length, Spec.Unisolvent e.2.2 ps) ∧
    (∀ g ∈ cascadedMomentSets e.2.2, Spec.Unisolvent e.2.2 g.flatten) ∧
    (∀ w, ∀ g ∈ orthogonalModes e.2.2 w, Spec.Unisolvent e.2.2 g.flatten) := by
  intro e he
  refine ⟨unisolvent_default e he, fun g h => ?_, fun w g h => ?_⟩
  · exact unisolvent_cascaded e he _ (Option.mem_map.2 ⟨g, h, rfl⟩)
  · cases w
    · exact unisolvent_unweighted e he _ (Option.mem_map.2 ⟨g, h, rfl⟩)
    · exact unisolvent_weighted e he _ (Option.mem_map.2 ⟨g, h, rfl⟩)

/-- C47: which sets exist: all stencils but the long-range ones have a default and a cascaded set, D2Q9, D3Q15, D3Q19
weighted-orthogonal modes, D3Q27 orthogonal modes. -/
theorem C47_available : ∀ e ∈ Tables.predefined,
    ((defaultMomentSet (e.2.2.headD []).length e.2.2.length).isSome ↔ e.1 ∈ ["D2Q9", "D3Q7", "D3Q15", "D3Q19", "D3Q27"]) ∧
    ((cascadedMomentSets e.2.2).isSome ↔ e.1 ∈ ["D2Q9", "D3Q7", "D3Q15", "D3Q19", "D3Q27"]) ∧
    ((orthogonalModes e.2.2 true).isSome ↔ e.1 ∈ ["D2Q9", "D3Q15", "D3Q19"]) ∧
    ((orthogonalModes e.2.2 false).isSome ↔ e.1 = "D3Q27") := by decide +kernel

/-- C47: the modes of `mrt_orthogonal_modes_literature` are pairwise orthogonal, with respect to the lattice weights if
weighted, else with respect to unit weights. -/
theorem C47_orthogonal : ∀ e ∈ Tables.predefined,
    (∀ g ∈ orthogonalModes e.2.2 true, ∃ w, getWeights e.2.2 = some w ∧
      g.flatten.Pairwise fun p q => (List.zipWith (fun (wi : ℚ) c => wi * ((p.at' c * q.at' c : ℤ) : ℚ)) w e.2.2).sum = 0) ∧
    (∀ g ∈ orthogonalModes e.2.2 false,
      g.flatten.Pairwise fun p q => (e.2.2.map fun c => p.at' c * q.at' c).sum = 0) := by
  have key : ∀ e ∈ Tables.predefined,
    (match orthogonalModes e.2.2 true with
      | none => true
      | some g => match getWeights e.2.2 with
        | none => false
        | some w =>
          decide (g.flatten.Pairwise fun p q =>
            (List.zipWith (fun (wi : ℚ) c => wi * ((p.at' c * q.at' c : ℤ) : ℚ)) w e.2.2).sum = 0)) = true ∧
    (match orthogonalModes e.2.2 false with
      | none => true
      | some g => decide (g.flatten.Pairwise fun p q => (e.2.2.map fun c => p.at' c * q.at' c).sum = 0)) = true := by
    decide +kernel
  intro e he
  obtain ⟨h1, h2⟩ := key e he
  constructor
  · intro g hg
    rw [Option.mem_def.1 hg] at h1
    simp only [] at h1
    split at h1
    · cases h1
    · rename_i w hw
      exact ⟨w, hw, of_decide_eq_true h1⟩
  · intro g hg
    rw [Option.mem_def.1 hg] at h2
    exact of_decide_eq_true h2

/-- C47: the groups of `cascaded_moment_sets_literature` are ordered as documented: density, momentum (one moment per
axis), shear modes, the bulk mode, and modes that are neither. -/
theorem C47_groups_as_documented : ∀ e ∈ Tables.predefined, ∀ g ∈ cascadedMomentSets e.2.2,
    ∃ shear bulk rest, g = [1] :: ([PExpr.x, PExpr.y, PExpr.z].take (e.2.2.headD []).length) :: shear :: [bulk] :: rest ∧
      (∀ p ∈ shear, isShearMoment p.expand (e.2.2.headD []).length = true) ∧
      isBulkMoment bulk.expand (e.2.2.headD []).length = true ∧
      ∀ p ∈ rest.flatten, isShearMoment p.expand (e.2.2.headD []).length = false ∧
        isBulkMoment p.expand (e.2.2.headD []).length = false := by
  have key : ∀ e ∈ Tables.predefined, (match cascadedMomentSets e.2.2 with
      | none => true
      | some (a :: b :: shear :: [bulk] :: rest) =>
        decide (a = [1] ∧ b = [PExpr.x, PExpr.y, PExpr.z].take (e.2.2.headD []).length ∧
          (∀ p ∈ shear, isShearMoment p.expand (e.2.2.headD []).length = true) ∧
          isBulkMoment bulk.expand (e.2.2.headD []).length = true ∧
          ∀ p ∈ rest.flatten, isShearMoment p.expand (e.2.2.headD []).length = false ∧
            isBulkMoment p.expand (e.2.2.headD []).length = false)
      | _ => false) = true := by decide +kernel
  intro e he g hg
  have h := key e he
  rw [Option.mem_def.1 hg] at h
  split at h
  · rename_i h'; cases h'
  · rename_i a b shear bulk rest h'
    obtain ⟨rfl, rfl, h3⟩ := of_decide_eq_true h
    exact ⟨shear, bulk, rest, Option.some.inj h', h3⟩
  · cases h

/-! ### Expansion of polynomials -/

section Expand
variable {R : Type} [CommRing R]

namespace PExpr

theorem monomial_add (m n : List ℕ) (v : List R) (h : m.length = n.length) :
    Spec.monomial (List.zipWith (· + ·) m n) v = Spec.monomial m v * Spec.monomial n v := by
  induction m generalizing n v with
  | nil =>
    cases n with
    | nil => simp [Spec.monomial]
    | cons a n => simp at h
  | cons a m ih =>
    cases n with
    | nil => simp at h
    | cons b n =>
      cases v with
      | nil => simp [Spec.monomial]
      | cons c v =>
        have := ih n v (by simpa using h)
        unfold Spec.monomial at this ⊢
        simp only [List.zipWith_cons_cons, List.prod_cons, this, pow_add]
        ring

/-- a polynomial with integer coefficients, at a point of any ring -/
def evalM (p : MPoly ℤ) (v : List R) : R := Spec.polyEval (p.map fun t => ((t.1 : R), t.2)) v

theorem evalM_cons (c : ℤ) (m : List ℕ) (p : MPoly ℤ) (v : List R) :
    evalM ((c, m) :: p) v = c * Spec.monomial m v + evalM p v := by simp [evalM, Spec.polyEval]

theorem evalM_nil (v : List R) : evalM ([] : MPoly ℤ) v = 0 := rfl

theorem evalM_addTerm (c : ℤ) (m : List ℕ) (p : MPoly ℤ) (v : List R) :
    evalM (addTerm c m p) v = evalM p v + c * Spec.monomial m v := by
  induction p with
  | nil =>
    rw [addTerm]
    split
    · rename_i h; subst h; simp
    · rw [evalM_cons, add_comm]
  | cons t p ih =>
    obtain ⟨d, n⟩ := t
    rw [addTerm]
    split
    · rename_i h
      subst h
      split
      · rename_i h0
        have : (d : R) + c = 0 := by rw [← Int.cast_add, h0, Int.cast_zero]
        rw [evalM_cons]
        linear_combination -(Spec.monomial n v) * this
      · rw [evalM_cons, evalM_cons, Int.cast_add]; ring
    · rw [evalM_cons, evalM_cons, ih]; ring

theorem addTerm_length (k : ℕ) (c : ℤ) (m : List ℕ) (p : MPoly ℤ) (hm : m.length = k)
    (hp : ∀ t ∈ p, t.2.length = k) : ∀ t ∈ addTerm c m p, t.2.length = k := by
  induction p with
  | nil =>
    rw [addTerm]
    split
    · simp
    · simpa using hm
  | cons t p ih =>
    obtain ⟨d, n⟩ := t
    have h1 := hp (d, n) (by simp)
    have h2 := ih fun t ht => hp t (by simp [ht])
    rw [addTerm]
    split
    · split
      · exact fun t ht => hp t (by simp [ht])
      · intro t ht
        rcases List.mem_cons.1 ht with rfl | ht
        · exact h1
        · exact hp t (by simp [ht])
    · intro t ht
      rcases List.mem_cons.1 ht with rfl | ht
      · exact h1
      · exact h2 t ht

theorem addMul_spec (c : ℤ) (m : List ℕ) (q p : MPoly ℤ) (k : ℕ) (hm : m.length = k) (hq : ∀ t ∈ q, t.2.length = k)
    (hp : ∀ t ∈ p, t.2.length = k) : (∀ t ∈ addMul c m q p, t.2.length = k) ∧
    ∀ v : List R, evalM (addMul c m q p) v = evalM p v + c * Spec.monomial m v * evalM q v := by
  induction q generalizing p with
  | nil => exact ⟨hp, fun v => by simp [addMul, evalM_nil]⟩
  | cons t q ih =>
    obtain ⟨d, n⟩ := t
    have hn := hq (d, n) (by simp)
    have hmn : m.length = n.length := hm.trans hn.symm
    have := ih (addTerm (c * d) (List.zipWith (· + ·) m n) p) (fun t ht => hq t (List.mem_cons_of_mem _ ht))
      (addTerm_length k _ _ _ (by rw [List.length_zipWith, ← hmn, Nat.min_self, hm]) hp)
    refine ⟨this.1, fun v => ?_⟩
    have e : addMul c m ((d, n) :: q) p = addMul c m q (addTerm (c * d) (List.zipWith (· + ·) m n) p) := rfl
    rw [e, this.2 v, evalM_addTerm, monomial_add m n v hmn, evalM_cons]
    push_cast
    ring

theorem mulM_spec (p q : MPoly ℤ) (k : ℕ) (hp : ∀ t ∈ p, t.2.length = k) (hq : ∀ t ∈ q, t.2.length = k) :
    (∀ t ∈ mulM p q, t.2.length = k) ∧ ∀ v : List R, evalM (mulM p q) v = evalM p v * evalM q v := by
  have gen : ∀ (p r : MPoly ℤ), (∀ t ∈ p, t.2.length = k) → (∀ t ∈ r, t.2.length = k) →
      (∀ t ∈ p.foldl (fun r t => addMul t.1 t.2 q r) r, t.2.length = k) ∧
      ∀ v : List R, evalM (p.foldl (fun r t => addMul t.1 t.2 q r) r) v = evalM r v + evalM p v * evalM q v := by
    intro p
    induction p with
    | nil => exact fun r _ hr => ⟨hr, fun v => by simp [evalM_nil]⟩
    | cons t p ih =>
      intro r hp hr
      obtain ⟨d, n⟩ := t
      have h1 := addMul_spec (R := R) d n q r k (hp (d, n) (by simp)) hq hr
      have h2 := ih (addMul d n q r) (fun t ht => hp t (by simp [ht])) h1.1
      refine ⟨h2.1, fun v => ?_⟩
      rw [List.foldl_cons, h2.2 v, h1.2 v, evalM_cons]
      ring
  have := gen p [] hp (by simp)
  exact ⟨this.1, fun v => by rw [mulM, this.2 v, evalM_nil, zero_add]⟩

theorem powM_spec (p : MPoly ℤ) (hp : ∀ t ∈ p, t.2.length = 3) (n : ℕ) :
    (∀ t ∈ powM p n, t.2.length = 3) ∧ ∀ v : List R, evalM (powM p n) v = evalM p v ^ n := by
  induction n with
  | zero => exact ⟨by simp [powM], fun v => by
      simp only [powM, evalM_cons, evalM_nil, pow_zero]
      unfold Spec.monomial
      rcases v with _ | ⟨a, _ | ⟨b, _ | ⟨c, v⟩⟩⟩ <;> simp⟩
  | succ n ih =>
    have := mulM_spec (R := R) p (powM p n) 3 hp ih.1
    exact ⟨this.1, fun v => by rw [powM, this.2 v, ih.2 v, pow_succ']⟩

theorem expand_spec (p : PExpr) : (∀ t ∈ p.expand, t.2.length = 3) ∧
    ∀ v : Fin 3 → R, evalM p.expand [v 0, v 1, v 2] = p.eval v := by
  induction p with
  | const n =>
    refine ⟨addTerm_length 3 _ _ _ rfl (by simp), fun v => ?_⟩
    rw [expand, evalM_addTerm, evalM_nil]
    simp [Spec.monomial, eval]
  | var i =>
    refine ⟨by simp [expand], fun v => ?_⟩
    rw [expand, evalM_cons, evalM_nil]
    unfold Spec.monomial
    match i with
    | 0 => simp [eval]
    | 1 => simp [eval]
    | 2 => simp [eval]
  | add a b iha ihb =>
    have := addMul_spec (R := R) 1 [0, 0, 0] b.expand a.expand 3 rfl ihb.1 iha.1
    refine ⟨this.1, fun v => ?_⟩
    rw [expand, this.2, iha.2, ihb.2]
    simp [Spec.monomial, eval]
  | sub a b iha ihb =>
    have := addMul_spec (R := R) (-1) [0, 0, 0] b.expand a.expand 3 rfl ihb.1 iha.1
    refine ⟨this.1, fun v => ?_⟩
    rw [expand, this.2, iha.2, ihb.2]
    simp [Spec.monomial, eval, sub_eq_add_neg]
  | mul a b iha ihb =>
    have := mulM_spec (R := R) a.expand b.expand 3 iha.1 ihb.1
    refine ⟨this.1, fun v => ?_⟩
    rw [expand, this.2, iha.2, ihb.2, eval]
  | pow a n iha =>
    have := powM_spec (R := R) a.expand iha.1 n
    refine ⟨this.1, fun v => ?_⟩
    rw [expand, this.2, iha.2, eval]

end PExpr
end Expand

/-- C47: expanding a polynomial into exponent representation does not change its values (so the classification above
is about the moments that are used), in every commutative ring. -/
theorem C47_expand {R : Type} [CommRing R] (p : PExpr) (v : Fin 3 → R) :
    Spec.polyEval (p.expand.map fun t => ((t.1 : R), t.2)) [v 0, v 1, v 2] = p.eval v :=
  (PExpr.expand_spec p).2 v

example : (3 * (PExpr.x ^ 2 + PExpr.y ^ 2) - 2 * PExpr.x ^ 2 : PExpr).expand = [(1, [2, 0, 0]), (3, [0, 2, 0])] := by
  decide +kernel

/-- a set that is not a basis: `x` and `x^3` on a first-neighbour stencil -/
example : ¬ Spec.Unisolvent [[1], [-1]] [PExpr.x, PExpr.x ^ 3] := by
  rintro ⟨-, h⟩
  obtain ⟨f, hf, -⟩ := h ℚ (fun i => if i.val = 0 then 0 else 1)
  have h0 := hf (0 : Fin 2)
  have h1 := hf (1 : Fin 2)
  have e : ∀ j : Fin 2, (PExpr.x.at' (([[1], [-1]] : List (List ℤ)).get j) : ℚ)
      = ((PExpr.x ^ 3 : PExpr).at' (([[1], [-1]] : List (List ℤ)).get j) : ℚ) := by decide +kernel
  have h2 : (0 : ℚ) = 1 := by
    refine (h0.symm.trans ?_).trans h1
    exact Finset.sum_congr rfl fun j _ => congrArg (· * f j) (e j)
  exact absurd h2 (by decide)

end Lbm
