/-
C97: the two transforms between populations and raw moments compute the same.
-/
import Verif.RawTransforms
import Verif.Props.CentralTransformsOffered

set_option linter.unusedSectionVars false

namespace Lbm

open Matrix CentralMoments

variable {K : Type} [Field K] {D : ℕ}

namespace Spec

/-- raw moments of populations together with the moments `raw` of a background distribution -/
def rawMoments (D : ℕ) (st : List (List ℤ)) (polys : Fin st.length → MPoly ℤ) (raw : List ℕ → K)
    (f : Fin st.length → K) (i : Fin st.length) : K :=
  ∑ q, f q * polyEval ((polys i).map fun t => ((t.1 : K), t.2)) (List.ofFn fun a : Fin D => (((st.get q).getD a 0 : ℤ) : K)) +
    ((polys i).map fun t => (t.1 : K) * raw t.2).sum

/-- raw moments of monomials -/
def monomialMoments (D : ℕ) (st : List (List ℤ)) (raw : List ℕ → K) (f : Fin st.length → K) (m : List ℕ) : K :=
  ∑ q, f q * monomial m (List.ofFn fun a : Fin D => (((st.get q).getD a 0 : ℤ) : K)) + raw m

/-- the background takes the same moment for monomials that are equal on the stencil -/
def RespectsAliases (st : List (List ℤ)) (raw : List ℕ → K) (monos : List (List ℕ)) : Prop :=
  ∀ m ∈ monos, ∀ m' ∈ monos, (∀ c ∈ st, monomial m c = monomial m' c) → raw m = raw m'

/-- the polynomial moments determine the populations -/
def Determined (K : Type) [Field K] (D : ℕ) (st : List (List ℤ)) (polys : Fin st.length → MPoly ℤ) : Prop :=
  ∀ f : Fin st.length → K, (∀ i, rawMoments D st polys (fun _ => 0) f i = 0) → f = 0

end Spec

namespace RawTransforms

open Chimera CentralTransforms

section
variable {st : List (List ℤ)} {polys : Fin st.length → MPoly ℤ} {raw : List ℕ → K}

/-- polynomial directions are the moments of populations plus background, and inverse to each other -/
def Computes (D : ℕ) (polys : Fin st.length → MPoly ℤ) (raw : List ℕ → K) (t : Transform K st.length) : Prop :=
  (∀ f, t.forward f = Spec.rawMoments D st polys raw f) ∧ (∀ f, t.backward (t.forward f) = f) ∧
    ∀ m, t.forward (t.backward m) = m

/-- the same for the monomials of the transform -/
def ComputesMonomials (D : ℕ) (st : List (List ℤ)) (raw : List ℕ → K) (t : Transform K st.length) : Prop :=
  t.exps.length = st.length ∧
  (∀ f, t.forwardMonomials f = .ok fun j => Spec.monomialMoments D st raw f (t.exps.getD j [])) ∧
  (∀ f, t.backwardMonomials (fun j => Spec.monomialMoments D st raw f (t.exps.getD j [])) = .ok f) ∧
  ∀ m, ∃ f, t.backwardMonomials m = .ok f ∧ (fun j : Fin st.length => Spec.monomialMoments D st raw f (t.exps.getD j [])) = m

theorem rawMoments_eq (f : Fin st.length → K) : Spec.rawMoments D st polys raw f =
    momentMatrix evP polys (velocity st) (0 : Fin D → K) *ᵥ f + fun i => backgroundMoment raw (polys i) := by
  funext i
  rw [Pi.add_apply, mulVec, dotProduct]
  unfold Spec.rawMoments
  congr 1
  refine Finset.sum_congr rfl fun q _ => ?_
  rw [polyEval_eq, mul_comm, momentMatrix_zero]
  rfl

theorem monomialMoments_eq (exps : Fin st.length → List ℕ) (f : Fin st.length → K) :
    (fun j => Spec.monomialMoments D st raw f (exps j)) =
      momentMatrix evM exps (velocity st) (0 : Fin D → K) *ᵥ f + fun j => raw (exps j) := by
  funext j
  rw [Pi.add_apply, mulVec, dotProduct]
  unfold Spec.monomialMoments
  congr 1
  refine Finset.sum_congr rfl fun q _ => ?_
  rw [monomial_eq, mul_comm, momentMatrix_zero]
  rfl

theorem determined_iff : Spec.Determined K D st polys ↔
    (momentMatrix evP polys (velocity (K := K) st) (0 : Fin D → K)).det ≠ 0 := by
  have h0 : ∀ f : Fin st.length → K, Spec.rawMoments D st polys (fun _ => 0) f =
      momentMatrix evP polys (velocity st) (0 : Fin D → K) *ᵥ f := by
    intro f
    rw [rawMoments_eq]
    funext i
    simp [backgroundMoment]
  constructor
  · intro h hd
    obtain ⟨v, hv, hv0⟩ := exists_mulVec_eq_zero_iff.2 hd
    exact hv (h v fun i => by rw [h0, hv0]; rfl)
  · intro h f hf
    by_contra hne
    refine h (exists_mulVec_eq_zero_iff.1 ⟨f, hne, ?_⟩)
    rw [← h0]
    funext i
    exact hf i

/-- directions of the expected form -/
theorem computes_of {t : Transform K st.length} {B : Matrix (Fin st.length) (Fin st.length) K} {bg : Fin st.length → K}
    (hB : B = momentMatrix evP polys (velocity st) (0 : Fin D → K)) (hd : B.det ≠ 0)
    (hbg : bg = fun i => backgroundMoment raw (polys i))
    (h1 : ∀ f, t.forward f = B *ᵥ f + bg) (h2 : ∀ k, t.backward k = B⁻¹ *ᵥ (k - bg)) : Computes D polys raw t := by
  have hU := isUnit_iff_ne_zero.2 hd
  refine ⟨fun f => ?_, fun f => ?_, fun k => ?_⟩
  · rw [h1, rawMoments_eq, hB, hbg]
  · rw [h2, h1, add_sub_cancel_right, mulVec_mulVec, nonsing_inv_mul _ hU, one_mulVec]
  · rw [h1, h2, mulVec_mulVec, mul_nonsing_inv _ hU, one_mulVec, sub_add_cancel]

theorem computesMonomials_of {t : Transform K st.length} (hl : t.exps.length = st.length)
    {A : Matrix (Fin st.length) (Fin st.length) K}
    (hA : A = momentMatrix evM (fun j : Fin st.length => t.exps.getD j []) (velocity st) (0 : Fin D → K)) (hd : A.det ≠ 0)
    (h1 : ∀ f, t.forwardMonomials f = .ok (A *ᵥ f + fun j : Fin st.length => raw (t.exps.getD j [])))
    (h2 : ∀ m, t.backwardMonomials m = .ok (A⁻¹ *ᵥ (m - fun j : Fin st.length => raw (t.exps.getD j [])))) :
    ComputesMonomials D st raw t := by
  have hU := isUnit_iff_ne_zero.2 hd
  refine ⟨hl, fun f => ?_, fun f => ?_, fun m => ⟨_, h2 m, ?_⟩⟩
  · rw [h1, hA, ← monomialMoments_eq]
  · rw [h2, monomialMoments_eq (D := D), ← hA, add_sub_cancel_right, mulVec_mulVec, nonsing_inv_mul _ hU, one_mulVec]
  · rw [monomialMoments_eq (D := D), ← hA, mulVec_mulVec, mul_nonsing_inv _ hU, one_mulVec, sub_add_cancel]

/-- **C97** The matrix transform can be constructed exactly if the moments determine the populations. It computes the moments of
populations plus background, and goes back. -/
theorem C97_matrix : ((∃ t, matrix D st polys raw = .ok t) ↔ Spec.Determined K D st polys) ∧
    ∀ t, matrix D st polys raw = .ok t → Computes D polys raw t := by
  rw [determined_iff]
  unfold matrix
  dsimp only
  constructor
  · constructor
    · rintro ⟨t, ht⟩ h
      rw [if_pos h] at ht
      cases ht
    · intro h
      exact ⟨_, if_neg h⟩
  · intro t ht
    split at ht
    · cases ht
    rename_i hd
    cases ht
    exact computes_of rfl hd rfl (fun f => rfl) fun k => rfl

/-! ### Removal of aliases -/

theorem backgroundMoment_cons (c : ℤ) (m : List ℕ) (p : MPoly ℤ) :
    backgroundMoment raw ((c, m) :: p) = (c : K) * raw m + backgroundMoment raw p := by
  rw [backgroundMoment, List.map_cons, List.sum_cons]
  rfl

theorem backgroundMoment_addTerm (c : ℤ) (m : List ℕ) (p : MPoly ℤ) :
    backgroundMoment raw (PExpr.addTerm c m p) = backgroundMoment raw p + (c : K) * raw m := by
  induction p with
  | nil =>
    rw [PExpr.addTerm]
    split
    · rename_i h; subst h; simp
    · rw [backgroundMoment_cons, add_comm]
  | cons t p ih =>
    obtain ⟨d, n⟩ := t
    rw [PExpr.addTerm]
    split
    · rename_i h
      subst h
      split
      · rename_i h0
        have : (d : K) + c = 0 := by rw [← Int.cast_add, h0, Int.cast_zero]
        rw [backgroundMoment_cons]
        linear_combination -(raw n) * this
      · rw [backgroundMoment_cons, backgroundMoment_cons, Int.cast_add]; ring
    · rw [backgroundMoment_cons, backgroundMoment_cons, ih]; ring

theorem backgroundMoment_collectTerms (p : MPoly ℤ) : backgroundMoment raw (collectTerms p) = backgroundMoment raw p := by
  have h : ∀ (p acc : MPoly ℤ), backgroundMoment raw (p.foldl (fun acc t => PExpr.addTerm t.1 t.2 acc) acc) =
      backgroundMoment raw acc + backgroundMoment raw p := by
    intro p
    induction p with
    | nil => intro acc; simp [backgroundMoment]
    | cons t p ih =>
      intro acc
      rw [List.foldl_cons, ih, backgroundMoment_addTerm, backgroundMoment_cons]
      ring
  have := h p []
  rw [show backgroundMoment raw [] = 0 from rfl, zero_add] at this
  exact this

theorem reduced_length : (reduced st (List.ofFn polys)).length = st.length := by
  unfold reduced nonAliasedPolynomials
  dsimp only
  split <;> simp

theorem reduced_spec (hst : ∀ c ∈ st, c.length = D) (hp : Spec.Polynomials D polys) (i : Fin st.length) :
    let r := (reduced st (List.ofFn polys)).getD i []
    r ∈ reduced st (List.ofFn polys) ∧ PExpr.Collected r ∧ (∀ m ∈ r.map Prod.snd, m ∈ monomials polys) ∧
      (∀ c ∈ st, Spec.polyEval r c = Spec.polyEval (polys i) c) ∧
      ∀ raw : List ℕ → K, Spec.RespectsAliases st raw (monomials polys) → backgroundMoment raw r = backgroundMoment raw (polys i) := by
  intro r
  obtain ⟨hl, hv⟩ := C17_polynomials (List.ofFn polys) (monomials polys) st D hst (monomials_nodup polys)
  rw [List.length_ofFn] at hl
  have hi : i.val < (nonAliasedPolynomials (List.ofFn polys) (monomials polys) st).length := by rw [hl]; exact i.2
  set L := nonAliasedPolynomials (List.ofFn polys) (monomials polys) st with hL
  have hmem : L[i.val] ∈ L := List.getElem_mem hi
  have hred : reduced st (List.ofFn polys) = L.map collectTerms := rfl
  have hr : r = collectTerms L[i.val] := by
    show (reduced st (List.ofFn polys)).getD i [] = _
    rw [hred, List.getD_eq_getElem _ _ (by rw [List.length_map]; exact hi), List.getElem_map]
  refine ⟨?_, hr ▸ (collected_collectTerms _).1, fun m hm => ?_, fun c hc => ?_, fun raw hraw => ?_⟩
  · rw [hr, hred]
    exact List.mem_map_of_mem hmem
  · rw [hr] at hm
    exact aliased_mem hst hp hmem m ((collected_collectTerms _).2 m hm)
  · rw [hr, polyEval_collectTerms]
    have := hv i (polys i) L[i.val] (by simp) (List.getElem?_eq_getElem hi) c hc
    simpa using this
  · rw [hr, backgroundMoment_collectTerms]
    obtain ⟨-, h2, -, h4⟩ := C17_aliases (monomials polys) st D hst (monomials_nodup polys)
    have hLi : L[i.val] = polys i ∨ L[i.val] = nonaliasPolynomial (aliasesFromMomentList (monomials polys) st) (polys i) := by
      have key : ∀ n (hn : n < L.length) (hn' : n < st.length), L[n] = polys ⟨n, hn'⟩ ∨
          L[n] = nonaliasPolynomial (aliasesFromMomentList (monomials polys) st) (polys ⟨n, hn'⟩) := by
        rw [hL]
        unfold nonAliasedPolynomials
        dsimp only
        split
        · intro n hn hn'; left; rw [List.getElem_ofFn]
        · intro n hn hn'; right; rw [List.getElem_map, List.getElem_ofFn]
      exact key i.val hi i.2
    rcases hLi with h | h
    · rw [h]
    · rw [h]
      unfold nonaliasPolynomial backgroundMoment
      rw [List.map_map]
      congr 1
      refine List.map_congr_left fun t ht => ?_
      have hm : t.2 ∈ monomials polys := mem_monomials.2 ⟨i, t, ht, ((hp i).2 t ht).1, rfl⟩
      show (t.1 : K) * raw (aliasOf _ t.2) = _
      rw [hraw _ (h2 _ hm) _ hm (h4 t.2)]

/-- the polynomials are combinations of the remaining monomials -/
theorem chimera_facts (hst : Spec.FirstNeighbours D st) (hp : Spec.Polynomials D polys)
    (hl : (exponents (reduced st (List.ofFn polys))).length = st.length) :
    (∀ j : Fin st.length, ((exponents (reduced st (List.ofFn polys))).getD j []).length = D) ∧
    (∀ j : Fin st.length, ∀ a ∈ (exponents (reduced st (List.ofFn polys))).getD j [], a < 10) ∧
    monoToPoly (K := K) (fun j : Fin st.length => (exponents (reduced st (List.ofFn polys))).getD j [])
        (fun i : Fin st.length => (reduced st (List.ofFn polys)).getD i []) *
      momentMatrix evM (fun j : Fin st.length => (exponents (reduced st (List.ofFn polys))).getD j []) (velocity st) (0 : Fin D → K) =
      momentMatrix evP polys (velocity st) (0 : Fin D → K) := by
  have hnd : (exponents (reduced st (List.ofFn polys))).Nodup := (CumulantMethod.sortExponents_perm _).nodup_iff.2 (List.nodup_dedup _)
  obtain ⟨e1, e2, e3, -⟩ := exps_of_list hl hnd (sorted_sums _)
  have hmem : ∀ m ∈ exponents (reduced st (List.ofFn polys)), m ∈ monomials polys := by
    intro m hm
    unfold exponents at hm
    rw [(CumulantMethod.sortExponents_perm _).mem_iff, mem_extract] at hm
    obtain ⟨p, hpm, t, ht, -, rfl⟩ := hm
    obtain ⟨n, hn, rfl⟩ := List.mem_iff_getElem.1 hpm
    have hn' : n < st.length := by rw [← reduced_length (st := st) (polys := polys)]; exact hn
    obtain ⟨-, -, h, -⟩ := reduced_spec (K := K) hst.2.1 hp ⟨n, hn'⟩
    refine h t.2 ?_
    rw [show ((⟨n, hn'⟩ : Fin st.length) : ℕ) = n from rfl, List.getD_eq_getElem _ _ hn]
    exact List.mem_map_of_mem ht
  refine ⟨fun j => ?_, fun j => ?_, ?_⟩
  · obtain ⟨i, t, ht, -, h⟩ := mem_monomials.1 (hmem _ (e2 j))
    rw [← h]
    exact ((hp i).2 t ht).2.1
  · obtain ⟨i, t, ht, -, h⟩ := mem_monomials.1 (hmem _ (e2 j))
    rw [← h]
    exact ((hp i).2 t ht).2.2
  · ext i q
    obtain ⟨g1, g2, g3, g4, -⟩ := reduced_spec (K := K) hst.2.1 hp i
    rw [mul_apply, momentMatrix_zero, evP_velocity st hst.2.1, ← g4 _ (List.get_mem _ _), ← evP_velocity (K := K) st hst.2.1]
    refine Eq.trans ?_ (terms_sum e1 (fun e => evM e (velocity (K := K) st q)) _ g2.1 fun t ht => e3 _ ?_).symm
    · exact Finset.sum_congr rfl fun j _ => by rw [momentMatrix_zero]; rfl
    · unfold exponents
      rw [(CumulantMethod.sortExponents_perm _).mem_iff, mem_extract]
      exact ⟨_, g1, t, ht, g2.2 t ht, rfl⟩

/-- **C97** The chimera transform can be constructed exactly if the moments determine the populations and as many monomials remain as
there are directions. -/
theorem C97_chimera_exists (hst : Spec.FirstNeighbours D st) (hp : Spec.Polynomials D polys) :
    (∃ t, chimera D st polys raw = .ok t) ↔
      Spec.Determined K D st polys ∧ (exponents (reduced st (List.ofFn polys))).length = st.length := by
  rw [determined_iff]
  unfold chimera
  dsimp only
  by_cases hl : (exponents (reduced st (List.ofFn polys))).length = st.length
  · obtain ⟨-, -, h⟩ := chimera_facts (K := K) hst hp hl
    rw [if_neg (not_not.2 hl), ← h, det_mul]
    constructor
    · rintro ⟨t, ht⟩
      split at ht
      · cases ht
      split at ht
      · cases ht
      rename_i h1 h2
      exact ⟨mul_ne_zero h2 h1, hl⟩
    · rintro ⟨h0, -⟩
      rw [if_neg (right_ne_zero_of_mul h0), if_neg (left_ne_zero_of_mul h0)]
      exact ⟨_, rfl⟩
  · rw [if_pos hl]
    constructor
    · rintro ⟨t, ht⟩; cases ht
    · rintro ⟨-, h⟩; exact absurd h hl

theorem unshift {Q : ℕ} {A P : Matrix (Fin Q) (Fin Q) K} (hA : IsUnit A.det) (hP : IsUnit P.det) (f : Fin Q → K) :
    A⁻¹ *ᵥ (P⁻¹ *ᵥ (P *ᵥ (A *ᵥ f))) = f := by
  rw [mulVec_mulVec f P A, mulVec_mulVec _ P⁻¹, ← Matrix.mul_assoc, nonsing_inv_mul _ hP, Matrix.one_mul, mulVec_mulVec,
    nonsing_inv_mul _ hA, one_mulVec]

theorem reshift {Q : ℕ} {A P : Matrix (Fin Q) (Fin Q) K} (hA : IsUnit A.det) (hP : IsUnit P.det) (m bg : Fin Q → K) :
    (fun i => (P *ᵥ (A *ᵥ (A⁻¹ *ᵥ (P⁻¹ *ᵥ fun i => m i - bg i)))) i + bg i) = m := by
  rw [mulVec_mulVec _ A, mul_nonsing_inv _ hA, one_mulVec, mulVec_mulVec, mul_nonsing_inv _ hP, one_mulVec]
  funext i
  ring

/-- **C97** The chimera transform computes the monomial moments of populations plus background and goes back; its polynomial
directions are the moments of the populations, shifted by the background of the reduced polynomials, and inverse to each other. -/
theorem C97_chimera (hD : 0 < D) (hst : Spec.FirstNeighbours D st) (hp : Spec.Polynomials D polys) {t : Transform K st.length}
    (ht : chimera D st polys raw = .ok t) : ComputesMonomials D st raw t ∧
    (∀ f i, t.forward f i = Spec.rawMoments D st polys (fun _ => 0) f i +
      backgroundMoment raw ((reduced st (List.ofFn polys)).getD i [])) ∧
    (∀ f, t.backward (t.forward f) = f) ∧ ∀ m, t.forward (t.backward m) = m := by
  unfold chimera at ht
  dsimp only at ht
  by_cases hl : (exponents (reduced st (List.ofFn polys))).length = st.length
  swap
  · rw [if_pos hl] at ht; cases ht
  rw [if_neg (not_not.2 hl)] at ht
  split at ht
  · cases ht
  split at ht
  · cases ht
  rename_i hA hP
  obtain ⟨hlen, h10, hPA⟩ := chimera_facts (K := K) hst hp hl
  cases ht
  have hU := isUnit_iff_ne_zero.2 hA
  have hUP := isUnit_iff_ne_zero.2 hP
  refine ⟨computesMonomials_of hl rfl hA (fun f => congrArg Except.ok ?_) fun m => rfl, fun f i => ?_, fun f => ?_, fun m => ?_⟩
  · funext j
    dsimp only
    rw [sums_raw hD hst hlen h10]
    rfl
  · dsimp only
    rw [sums_raw hD hst hlen h10, mulVec_mulVec, hPA, rawMoments_eq]
    simp [backgroundMoment]
  · dsimp only
    rw [sums_raw hD hst hlen h10]
    simp only [add_sub_cancel_right]
    exact unshift hU hUP f
  · dsimp only
    rw [sums_raw hD hst hlen h10]
    exact reshift hU hUP m _

/-- **C97** If the background takes the same moment for monomials that are equal on the stencil, the chimera transform computes the
polynomial moments of populations plus background, like the matrix transform. -/
theorem C97_agree (hD : 0 < D) (hst : Spec.FirstNeighbours D st) (hp : Spec.Polynomials D polys)
    (hraw : Spec.RespectsAliases st raw (monomials polys)) {t : Transform K st.length}
    (ht : chimera D st polys raw = .ok t) : Computes D polys raw t ∧
    ∃ t', matrix D st polys raw = .ok t' ∧ t'.forward = t.forward ∧ t'.backward = t.backward := by
  obtain ⟨-, h1, h2, h3⟩ := C97_chimera hD hst hp ht
  have hc : Computes D polys raw t := by
    refine ⟨fun f => funext fun i => ?_, h2, h3⟩
    rw [h1, (reduced_spec (K := K) hst.2.1 hp i).2.2.2.2 raw hraw, rawMoments_eq, rawMoments_eq]
    simp [backgroundMoment]
  obtain ⟨t', ht'⟩ := (C97_matrix (K := K) (D := D) (polys := polys) (raw := raw)).1.2 ((C97_chimera_exists hst hp).1 ⟨t, ht⟩).1
  have hc' := C97_matrix.2 t' ht'
  have hf : t'.forward = t.forward := funext fun f => by rw [hc.1, hc'.1]
  refine ⟨hc, t', ht', hf, funext fun m => ?_⟩
  rw [← hc.2.2 m, ← hf, hc'.2.1, hf, hc.2.2]

/-- **C97** The monomial directions of the matrix transform -/
theorem C97_matrix_monomials (hp : Spec.Polynomials D polys) {t : Transform K st.length} (ht : matrix D st polys raw = .ok t) :
    t.exps = monomials polys ∧
    ((monomials polys).length = st.length → ComputesMonomials D st raw t) ∧
    ((monomials polys).length ≠ st.length → ∀ x, t.forwardMonomials x = .error .assertion ∧ t.backwardMonomials x = .error .assertion) := by
  unfold matrix at ht
  dsimp only at ht
  split at ht
  · cases ht
  rename_i hd
  cases ht
  refine ⟨rfl, fun hl => ?_, fun hl x => ⟨if_pos hl, if_pos hl⟩⟩
  obtain ⟨e1, -, e3, -⟩ := exps_of_list hl (monomials_nodup polys) (sorted_sums _)
  have hPA : monoToPoly (K := K) (fun j : Fin st.length => (monomials polys).getD j []) polys *
      momentMatrix evM (fun j : Fin st.length => (monomials polys).getD j []) (velocity st) (0 : Fin D → K) =
      momentMatrix evP polys (velocity st) (0 : Fin D → K) := by
    ext i q
    rw [mul_apply]
    exact (terms_sum e1 (fun e => evM e fun a => velocity st q a - (0 : Fin D → K) a) (polys i) (hp i).1 fun t ht =>
      e3 _ (mem_monomials.2 ⟨i, t, ht, ((hp i).2 t ht).1, rfl⟩)).symm
  have hA : (momentMatrix evM (fun j : Fin st.length => (monomials polys).getD j []) (velocity (K := K) st) (0 : Fin D → K)).det ≠ 0 := by
    intro h0
    rw [← hPA, det_mul, h0, mul_zero] at hd
    exact hd rfl
  exact computesMonomials_of hl rfl hA (fun f => if_neg (not_not.2 hl)) fun m => (if_neg (not_not.2 hl)).trans (if_neg hA)

/-- without background, or with the moments of populations, the condition on the background holds -/
theorem respects_discrete (hst : ∀ c ∈ st, c.length = D) (w : Fin st.length → K) (monos : List (List ℕ)) :
    Spec.RespectsAliases st (discrete (K := K) (D := D) st w).raw monos := by
  intro m _ m' _ h
  unfold discrete
  dsimp only
  refine Finset.sum_congr rfl fun q _ => ?_
  rw [evM_velocity st hst, evM_velocity st hst, h _ (List.get_mem _ _)]

end

/-! ### The sets the library offers -/

theorem exponents_perm {l l' : List (MPoly ℤ)} (h : l.Perm l') : (exponents l).length = (exponents l').length := by
  have hp : (extract l).Perm (extract l') := by
    refine (List.perm_ext_iff_of_nodup (List.nodup_dedup _) (List.nodup_dedup _)).2 fun m => ?_
    show m ∈ extract l ↔ m ∈ extract l'
    simp only [mem_extract, h.mem_iff]
  exact ((CumulantMethod.sortExponents_perm _).trans (hp.trans (CumulantMethod.sortExponents_perm _).symm)).length_eq

theorem reduced_perm {st : List (List ℤ)} {l l' : List (MPoly ℤ)} (h : l.Perm l') (hd : Distinguished (monosL l')) :
    (reduced st l).Perm (reduced st l') := by
  unfold reduced
  rw [show CumulantMethod.sortExponents (extract l) = CumulantMethod.sortExponents (extract l') from monosL_perm h hd]
  refine List.Perm.map _ ?_
  unfold nonAliasedPolynomials
  dsimp only
  split
  · exact h
  · exact h.map _

/-- what has to be checked of a stencil and a set of polynomials in addition to `offeredOk` -/
def rawOk (st : List (List ℤ)) (ps : List PExpr) : Bool :=
  let D := (st.headD []).length
  let M := monosL (terms D ps)
  decide ((exponents (reduced st (terms D ps))).length = st.length) &&
  M.all fun m => M.all fun r => !(st.all fun c => Spec.monomial m c == Spec.monomial r c) || sameOn st m r

theorem raw_ok : ∀ e ∈ Tables.predefined, ((defaultMomentSet (e.2.2.headD []).length e.2.2.length).all (rawOk e.2.2) &&
    (cascadedMomentSets e.2.2).all fun g => rawOk e.2.2 g.flatten) = true := by decide +kernel

/-- whether the moments determine the populations does not depend on their order -/
theorem determined_perm {st : List (List ℤ)} {polys polys' : Fin st.length → MPoly ℤ} (h : ∀ i, ∃ j, polys' j = polys i)
    (hd : Spec.Determined K D st polys) : Spec.Determined K D st polys' := by
  intro f hf
  refine hd f fun i => ?_
  obtain ⟨j, hj⟩ := h i
  have := hf j
  unfold Spec.rawMoments at this ⊢
  rw [← hj]
  exact this

/-- **C97** For every moment set the library offers for a stencil (the default sets and the cascaded sets, in every order) and every
background with isotropic raw moments: both transforms can be constructed, agree, compute the polynomial moments of populations plus
background and go back; the chimera transform does so for its monomials too. -/
theorem C97_offered_sets [CharZero K] : ∀ e ∈ Tables.predefined, ∀ ps, CentralMoments.Offered e.2.2 ps → ∀ qs : Fin e.2.2.length → PExpr,
    (List.ofFn qs).Perm ps → ∀ raw : List ℕ → K, Spec.Isotropic (⟨raw, fun _ _ => 0⟩ : Background K (e.2.2.headD []).length) →
    ∃ t t', chimera (e.2.2.headD []).length e.2.2 (polysOf (e.2.2.headD []).length qs) raw = .ok t ∧
      matrix (e.2.2.headD []).length e.2.2 (polysOf (e.2.2.headD []).length qs) raw = .ok t' ∧
      Computes (e.2.2.headD []).length (polysOf (e.2.2.headD []).length qs) raw t ∧ t'.forward = t.forward ∧ t'.backward = t.backward ∧
      ComputesMonomials (e.2.2.headD []).length e.2.2 raw t := by
  intro e he ps ho qs hperm raw hiso
  -- the sorted set determines the populations
  have hdet : Spec.Determined K (e.2.2.headD []).length e.2.2 (polysOf (e.2.2.headD []).length qs) := by
    set l := (List.ofFn qs).mergeSort fun p q => decide (Spec.degree p ≤ Spec.degree q) with hl
    have hlp : l.Perm (List.ofFn qs) := List.mergeSort_perm _ _
    have hll : l.length = e.2.2.length := by rw [hlp.length_eq, List.length_ofFn]
    have hsort : l.Pairwise fun p q => Spec.degree p ≤ Spec.degree q := by
      have := List.pairwise_mergeSort (le := fun p q : PExpr => decide (Spec.degree p ≤ Spec.degree q))
        (fun a b c h1 h2 => by simp only [decide_eq_true_eq] at *; omega) (fun a b => by simp only [Bool.or_eq_true, decide_eq_true_eq]; omega)
        (List.ofFn qs)
      exact this.imp fun h => of_decide_eq_true h
    have hofFn : List.ofFn (fun i : Fin e.2.2.length => l.getD i 0) = l := by
      refine List.ext_getElem (by rw [List.length_ofFn, hll]) fun n h1 h2 => ?_
      rw [List.getElem_ofFn, List.getD_eq_getElem _ _ h2]
    obtain ⟨t1, t2, t3, t4, -, -, -, -, h⟩ := C94_offered_sets (K := K) e he ps ho (fun i => l.getD i 0) (by rw [hofFn]; exact hlp.trans hperm)
      (fun i j hij => by
        rw [List.getD_eq_getElem _ _ (by rw [hll]; exact i.2), List.getD_eq_getElem _ _ (by rw [hll]; exact j.2)]
        rcases hij.lt_or_eq with h | rfl
        · exact List.pairwise_iff_getElem.1 hsort _ _ _ _ h
        · exact le_rfl) _ no_background.1 no_background.2 fun _ => 0
    have hc := h 0 t4 (by simp)
    refine determined_perm (polys := polysOf (e.2.2.headD []).length fun i => l.getD i 0) (fun i => ?_) fun f hf => ?_
    · have : l.getD i 0 ∈ List.ofFn qs := hlp.subset (by
        rw [List.getD_eq_getElem _ _ (by rw [hll]; exact i.2)]; exact List.getElem_mem _)
      obtain ⟨j, hj⟩ := (List.mem_ofFn' _ _).1 this
      exact ⟨j, by unfold polysOf; rw [hj]⟩
    · have h0 : Spec.centralMoments e.2.2 (polysOf (e.2.2.headD []).length fun i => l.getD i 0)
            (⟨fun _ => 0, fun _ _ => 0⟩ : Background K (e.2.2.headD []).length) 0 f =
          Spec.centralMoments e.2.2 (polysOf (e.2.2.headD []).length fun i => l.getD i 0)
            (⟨fun _ => 0, fun _ _ => 0⟩ : Background K (e.2.2.headD []).length) 0 0 := by
        funext i
        have := hf i
        unfold Spec.rawMoments at this
        unfold Spec.centralMoments
        simp only [Pi.zero_apply, sub_zero, zero_mul, Finset.sum_const_zero, zero_add]
        simpa using this
      have h1 := hc.2.1 f
      rw [h0, hc.2.1 0] at h1
      exact (Except.ok.inj h1).symm
  have hlens := predefined_lengths e he
  have hnd := predefined_nodup e he
  have hok : offeredOk e.2.2 ps = true ∧ rawOk e.2.2 ps = true := by
    have h1 := offered_ok e he
    have h2 := raw_ok e he
    rw [Bool.and_eq_true] at h1 h2
    rcases ho with h | ⟨g, h, rfl⟩
    · rw [Option.mem_def.1 h] at h1 h2; exact ⟨h1.1, h2.1⟩
    · rw [Option.mem_def.1 h] at h1 h2; exact ⟨h1.2, h2.2⟩
  generalize e.2.2 = st at *
  generalize hD : (st.headD []).length = D at *
  obtain ⟨hok, hraw⟩ := hok
  unfold offeredOk at hok
  unfold rawOk at hraw
  simp only [hD, Bool.and_eq_true, decide_eq_true_eq] at hok hraw
  obtain ⟨⟨⟨⟨⟨⟨⟨⟨⟨⟨⟨hD0, hD3⟩, k1⟩, k2⟩, k3⟩, k4⟩, -⟩, -⟩, -⟩, -⟩, -⟩, -⟩ := hok
  obtain ⟨r1, r2⟩ := hraw
  set polys := polysOf D qs with hpolys
  have hst : Spec.FirstNeighbours D st := ⟨hnd, hlens, by simpa [or_assoc] using k1⟩
  have hmem : ∀ i, qs i ∈ ps := fun i => hperm.subset ((List.mem_ofFn' qs _).2 ⟨i, rfl⟩)
  simp only [List.all_eq_true, Bool.and_eq_true, decide_eq_true_eq, beq_iff_eq] at k2 k3
  have hp : Spec.Polynomials D polys := by
    intro i
    refine ⟨k3 _ (hmem i), fun t ht => ?_⟩
    obtain ⟨t', ht', rfl⟩ := List.mem_map.1 ht
    refine ⟨(PExpr.collected_expand (qs i)).2 t' ht', ?_, fun a ha => (k2 _ (hmem i) t' ht').1 a (List.mem_of_mem_take ha)⟩
    rw [List.length_take, (PExpr.expand_spec (R := ℤ) (qs i)).1 t' ht']
    omega
  have hofFn : (List.ofFn polys).Perm (terms D ps) := by
    have := hperm.map fun p : PExpr => p.expand.map fun t => (t.1, t.2.take D)
    rw [List.map_ofFn] at this
    exact this
  have dist : Distinguished (monosL (terms D ps)) := by
    intro a ha b hb h1 h2
    unfold distinguishedB at k4
    have := List.all_eq_true.1 (List.all_eq_true.1 k4 a ha) b hb
    rw [show CumulantMethod.lexLe (CumulantMethod.sortKey a) (CumulantMethod.sortKey b) = true from h1,
      show CumulantMethod.lexLe (CumulantMethod.sortKey b) (CumulantMethod.sortKey a) = true from h2] at this
    simpa using this
  have hM : monomials polys = monosL (terms D ps) := monosL_perm hofFn dist
  have hlen : (exponents (reduced st (List.ofFn polys))).length = st.length := by
    rw [exponents_perm (reduced_perm hofFn dist), r1]
  have hresp : Spec.RespectsAliases st raw (monomials polys) := by
    rw [hM]
    intro m hm r hr heq
    have h1 := List.all_eq_true.1 (List.all_eq_true.1 r2 m hm) r hr
    rw [Bool.or_eq_true] at h1
    have h1 := h1.resolve_left (by simpa using heq)
    unfold sameOn at h1
    simp only [Bool.or_eq_true, Bool.and_eq_true, beq_iff_eq, List.all_eq_true, decide_eq_true_eq, List.any_eq_true] at h1
    rcases h1 with rfl | ⟨-, h1 | ⟨h1, h2⟩⟩
    · rfl
    · exact hiso.1 _ _ h1
    · exact (hiso.2 _ h1).trans (hiso.2 _ h2).symm
  obtain ⟨t, ht⟩ := (C97_chimera_exists (raw := raw) hst hp).2 ⟨hdet, hlen⟩
  obtain ⟨hc, t', ht', h1, h2⟩ := C97_agree hD0 hst hp hresp ht
  exact ⟨t, t', ht, ht', hc, h1, h2, (C97_chimera hD0 hst hp ht).1⟩

end RawTransforms
end Lbm
