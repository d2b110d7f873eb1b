/-
C94 for the sets of moments the library offers, and cases in which the transforms fail or disagree.
-/
import Verif.Props.CentralTransforms
import Verif.Props.ShiftMatrix

set_option linter.unusedSectionVars false

namespace Lbm

open Matrix CentralMoments

namespace Spec

/-- raw moments that do not distinguish the axes and vanish for odd exponents, such as those of a distribution at rest -/
def Isotropic {K : Type} [Field K] {D : ℕ} (b : CentralTransforms.Background K D) : Prop :=
  (∀ m m', m.Perm m' → b.raw m = b.raw m') ∧ ∀ m, (∃ a ∈ m, a % 2 = 1) → b.raw m = 0

end Spec

namespace CentralTransforms

open Chimera

variable {K : Type} [Field K] {D : ℕ}

/-- the polynomials of a method as terms, with as many exponents as the stencil has dimensions (`abstractmomenttransform.py:68`) -/
def polysOf {Q : ℕ} (D : ℕ) (qs : Fin Q → PExpr) : Fin Q → MPoly ℤ := fun i => (qs i).expand.map fun t => (t.1, t.2.take D)

/-! ### The order of the polynomials -/

/-- monomials of a list of polynomials, sorted -/
def monosL (l : List (MPoly ℤ)) : List (List ℕ) := CumulantMethod.sortExponents (extract l)

def redPolysL (st : List (List ℤ)) (l : List (MPoly ℤ)) : List (MPoly ℤ) :=
  (nonAliasedPolynomials l (monosL l) st).map fun p => pad (collectTerms p)

def redL (st : List (List ℤ)) (l : List (MPoly ℤ)) : List (List ℕ) := monosL (redPolysL st l)

/-- keys distinguish the elements -/
def Distinguished (l : List (List ℕ)) : Prop := ∀ a ∈ l, ∀ b ∈ l, CumulantMethod.keyLe a b → CumulantMethod.keyLe b a → a = b

theorem monosL_perm {l l' : List (MPoly ℤ)} (h : l.Perm l') (hd : Distinguished (monosL l')) : monosL l = monosL l' := by
  have hp : (extract l).Perm (extract l') := by
    refine (List.perm_ext_iff_of_nodup (List.nodup_dedup _) (List.nodup_dedup _)).2 fun m => ?_
    show m ∈ extract l ↔ m ∈ extract l'
    simp only [mem_extract, h.mem_iff]
  have hp' : (monosL l).Perm (monosL l') :=
    (CumulantMethod.sortExponents_perm _).trans (hp.trans (CumulantMethod.sortExponents_perm _).symm)
  exact List.Perm.eq_of_pairwise (le := CumulantMethod.keyLe) (fun a b ha hb => hd a (hp'.subset ha) b hb)
    (CumulantMethod.sortExponents_pairwise _) (CumulantMethod.sortExponents_pairwise _) hp'

theorem redL_perm {st : List (List ℤ)} {l l' : List (MPoly ℤ)} (h : l.Perm l') (hd : Distinguished (monosL l'))
    (hd' : Distinguished (redL st l')) : redL st l = redL st l' := by
  refine monosL_perm ?_ hd'
  unfold redPolysL
  rw [monosL_perm h hd]
  refine List.Perm.map _ ?_
  unfold nonAliasedPolynomials
  dsimp only
  split
  · exact h
  · exact h.map _

/-! ### The common part of the constructors -/

section setup
variable {st : List (List ℤ)} {polys : Fin st.length → MPoly ℤ}

/-- the constructors succeed if the raw moments determine the populations -/
theorem setup_ok (hst : ∀ c ∈ st, c.length = D) (hp : Spec.Polynomials D polys)
    (hd : (momentMatrix evP polys (velocity (K := K) (D := D) st) 0).det ≠ 0)
    (h : (monomials polys).length = st.length ∨ (D = 3 ∧ (monomials polys).length ≠ st.length ∧ (reducedMonomials st polys).length = st.length ∧
      Chimera.Spec.DownwardClosed (reducedMonomials st polys) ∧ ∃ N, setUpShiftMatrix evP polys (velocity (K := K) (D := D) st) = .ok N)) :
    ∃ s, setup K D st polys = .ok s ∧
      s.exps = fun j : Fin st.length => (if (monomials polys).length = st.length then monomials polys else reducedMonomials st polys).getD j [] := by
  rcases h with hq | ⟨rfl, hq, hr, hdc, NP, hNP⟩
  · unfold setup
    rw [if_neg (not_not.2 hq)]
    dsimp only
    obtain ⟨e1, e2, e3, e4⟩ := exps_of_list hq (monomials_nodup polys) (sorted_sums _)
    have hmul : monoToPoly (fun j : Fin st.length => (monomials polys).getD j []) polys *
        momentMatrix evM (fun j : Fin st.length => (monomials polys).getD j []) (velocity st) (0 : Fin D → K) =
        momentMatrix evP polys (velocity st) (0 : Fin D → K) := by
      ext i q
      rw [mul_apply]
      exact (terms_sum e1 (fun e => evM e fun a => velocity st q a - (0 : Fin D → K) a) (polys i) (hp i).1 fun t ht =>
        e3 _ (mem_monomials.2 ⟨i, t, ht, ((hp i).2 t ht).1, rfl⟩)).symm
    rw [if_neg fun h0 => hd (by rw [← hmul, det_mul, h0, zero_mul])]
    exact ⟨_, rfl, by rw [if_pos hq]⟩
  · unfold setup
    rw [if_pos hq]
    dsimp only
    rw [if_neg (not_not.2 hr)]
    have hnd : (reducedMonomials st polys).Nodup := (CumulantMethod.sortExponents_perm _).nodup_iff.2 (List.nodup_dedup _)
    obtain ⟨e1, e2, e3, e4⟩ := exps_of_list hr hnd (sorted_sums _)
    have hlen : ∀ j : Fin st.length, ((reducedMonomials st polys).getD j []).length = 3 := by
      intro j
      obtain ⟨i, t, ht, -, h⟩ := mem_monomials.1 (reducedMonomials_mem hst hp (e2 j))
      rw [← h]
      exact ((hp i).2 t ht).2.1
    have hmul : monoToPoly (fun j : Fin st.length => (reducedMonomials st polys).getD j [])
        (fun i : Fin st.length => (reducedPolynomials st polys).getD i []) *
        momentMatrix evM (fun j : Fin st.length => (reducedMonomials st polys).getD j []) (velocity st) (0 : Fin 3 → K) =
        momentMatrix evP polys (velocity st) (0 : Fin 3 → K) := by
      ext i q
      obtain ⟨g1, g2, g3, g4⟩ := reduced_entry hst hp i
      rw [mul_apply, momentMatrix_zero, evP_velocity st hst, ← g4 _ (List.get_mem _ _), ← evP_velocity (K := K) st hst]
      refine Eq.trans ?_ (terms_sum e1 (fun e => evM e (velocity (K := K) st q)) _ g2.1 fun t ht => e3 _ ?_).symm
      · exact Finset.sum_congr rfl fun j _ => by rw [momentMatrix_zero]; rfl
      · unfold reducedMonomials
        rw [(CumulantMethod.sortExponents_perm _).mem_iff, mem_extract]
        exact ⟨_, g1, t, ht, g2.2 t ht, rfl⟩
    have hdA : (momentMatrix evM (fun j : Fin st.length => (reducedMonomials st polys).getD j []) (velocity st) (0 : Fin 3 → K)).det ≠ 0 :=
      fun h0 => hd (by rw [← hmul, det_mul, h0, mul_zero])
    have hdc' : Chimera.Spec.DownwardClosed (List.ofFn fun j : Fin st.length => (reducedMonomials st polys).getD j []) := by
      intro e he a ha
      obtain ⟨j, rfl⟩ := (List.mem_ofFn' _ _).1 he
      obtain ⟨k, hk⟩ := e3 a (hdc _ (e2 j) a ha)
      exact (List.mem_ofFn' _ _).2 ⟨k, hk⟩
    obtain ⟨h1, h2⟩ := setUp_closed e1 hdc' hlen e4 hdA
    have hR : reducedMatrix evM (fun j : Fin st.length => (reducedMonomials st polys).getD j []) evP polys (velocity (K := K) (D := 3) st)
        (monoToPoly (fun j : Fin st.length => (reducedMonomials st polys).getD j [])
          (fun i : Fin st.length => (reducedPolynomials st polys).getD i [])) = .ok fun u => NP u *
          (monoToPoly (fun j : Fin st.length => (reducedMonomials st polys).getD j [])
          (fun i : Fin st.length => (reducedPolynomials st polys).getD i [])) *
            (binMat (fun j : Fin st.length => (reducedMonomials st polys).getD j []) u)⁻¹ := by
      unfold reducedMatrix
      rw [h1, hNP]
    rw [hR]
    dsimp only
    rw [if_neg]
    · exact ⟨_, rfl, by rw [if_neg hq]⟩
    · intro hall
      have h0 := hall 0
      obtain ⟨hd', rfl, -, -⟩ := setUp_ok hNP
      have hone : shiftMatrix evP polys (velocity (K := K) (D := 3) st) 0 = 1 := by
        rw [shiftMatrix, mul_nonsing_inv _ (isUnit_iff_ne_zero.2 hd')]
      rw [hone, Matrix.one_mul, det_mul, det_nonsing_inv, h2, Ring.inverse_one, mul_one] at h0
      exact hd (by rw [← hmul, det_mul, h0, zero_mul])

end setup

/-! ### The sets the library offers -/

/-- the polynomial as a function -/
theorem evP_polysOf {p : PExpr} (hD : D ≤ 3) (hp : Spec.InDimension D p) (v : Fin D → K) :
    evP (p.expand.map fun t => (t.1, t.2.take D)) v = pev p v := by
  rw [pev, ← (PExpr.expand_spec (R := K) p).2]
  have hl := (PExpr.expand_spec (R := ℤ) p).1
  unfold Spec.InDimension at hp
  unfold evP PExpr.evalM Spec.polyEval
  generalize p.expand = l at hl hp
  induction l with
  | nil => simp
  | cons t l ih =>
    have ih := ih (fun s hs => hl s (List.mem_cons_of_mem _ hs)) fun s hs => hp s (List.mem_cons_of_mem _ hs)
    simp only [List.map_cons, List.sum_cons] at ih ⊢
    rw [ih]
    congr 2
    have h3 := hl t List.mem_cons_self
    have hz := hp t List.mem_cons_self
    obtain ⟨n, e⟩ := t
    match e, h3 with
    | [a, b, c], _ =>
      have h0 := hz 0
      have h1 := hz 1
      have h2 := hz 2
      simp only [List.getD_cons_zero, List.getD_cons_succ] at h0 h1 h2
      interval_cases D
      · simp [evM, Spec.monomial, h0, h1, h2]
      · simp [evM, Spec.monomial, h1, h2]
      · simp [evM, Spec.monomial, h2, Fin.prod_univ_two, List.prod_cons]
      · simp [evM, Spec.monomial, Fin.prod_univ_three, List.prod_cons, mul_assoc]

/-- polynomials as terms, for a list -/
def terms (D : ℕ) (ps : List PExpr) : List (MPoly ℤ) := ps.map fun p => p.expand.map fun t => (t.1, t.2.take D)

/-- the exponents the constructor chooses -/
def keptL (st : List (List ℤ)) (l : List (MPoly ℤ)) : List (List ℕ) := if (monosL l).length = st.length then monosL l else redL st l

/-- `m` and `r` agree on the stencil, and have the same isotropic moments -/
def sameOn (st : List (List ℤ)) (m r : List ℕ) : Bool :=
  (m == r) || ((st.all fun c => Spec.monomial m c == Spec.monomial r c) &&
    (decide (m.Perm r) || ((m.any fun a => a % 2 == 1) && r.any fun a => a % 2 == 1)))

def distinguishedB (l : List (List ℕ)) : Bool :=
  l.all fun a => l.all fun b => !(CumulantMethod.lexLe (CumulantMethod.sortKey a) (CumulantMethod.sortKey b) &&
    CumulantMethod.lexLe (CumulantMethod.sortKey b) (CumulantMethod.sortKey a)) || a == b

/-- all that has to be checked of a stencil and a set of polynomials -/
def offeredOk (st : List (List ℤ)) (ps : List PExpr) : Bool :=
  let D := (st.headD []).length
  let M := monosL (terms D ps)
  let E := keptL st (terms D ps)
  decide (0 < D ∧ D ≤ 3) && (st.all fun c => c.all fun a => a == -1 || a == 0 || a == 1) &&
  (ps.all fun p => p.expand.all fun t => t.2.all (· < 10) && (t.2.drop D).all (· == 0)) &&
  (ps.all fun p => decide (((p.expand.map fun t => (t.1, t.2.take D)).map Prod.snd).Nodup)) &&
  distinguishedB M && distinguishedB E && (M.all fun e => (below e).all (· ∈ M)) && (E.all fun e => (below e).all (· ∈ E)) &&
  decide (E.length = st.length) && (decide (M.length = st.length) || decide (D = 3)) &&
  M.all fun m => E.any fun r => sameOn st m r

theorem offered_ok : ∀ e ∈ Tables.predefined, ((defaultMomentSet (e.2.2.headD []).length e.2.2.length).all (offeredOk e.2.2) &&
    (cascadedMomentSets e.2.2).all fun g => offeredOk e.2.2 g.flatten) = true := by decide +kernel

/-- C94: for every moment set the library offers for a stencil (the default sets and the cascaded sets, in every order of non-decreasing
degree), every background with isotropic raw moments, and every velocity: all four transforms can be constructed, compute the
polynomial central moments of populations plus background, and go back. -/
theorem C94_offered_sets [CharZero K] : ∀ e ∈ Tables.predefined, ∀ ps, Offered e.2.2 ps → ∀ qs : Fin e.2.2.length → PExpr,
    (List.ofFn qs).Perm ps → (∀ i j, i ≤ j → Spec.degree (qs i) ≤ Spec.degree (qs j)) →
    ∀ b : Background K (e.2.2.headD []).length, Spec.Consistent b → Spec.Isotropic b → ∀ free : List Char → K,
    ∃ t1 t2 t3 t4, fast e.2.2 (polysOf (e.2.2.headD []).length qs) b = .ok t1 ∧
      binomial e.2.2 (polysOf (e.2.2.headD []).length qs) b free = .ok t2 ∧
      shift e.2.2 (polysOf (e.2.2.headD []).length qs) b = .ok t3 ∧ matrix e.2.2 (polysOf (e.2.2.headD []).length qs) b = .ok t4 ∧
      ∀ u, ∀ t ∈ [t1, t2, t3, t4], Computes (polysOf (e.2.2.headD []).length qs) b u t := by
  intro e he ps ho qs hperm hs b hb hiso free
  obtain ⟨N, -, hN, -, -, -, hN1, -⟩ := C52_offered_sets (K := K) e he ps ho qs hperm hs
  have hlens := predefined_lengths e he
  have hnd := predefined_nodup e he
  have hok : offeredOk e.2.2 ps = true := by
    have := offered_ok e he
    rw [Bool.and_eq_true] at this
    rcases ho with h | ⟨g, h, rfl⟩
    · rw [Option.mem_def.1 h] at this; exact this.1
    · rw [Option.mem_def.1 h] at this; exact this.2
  generalize e.2.2 = st at *
  generalize hD : (st.headD []).length = D at *
  unfold offeredOk at hok
  simp only [hD, Bool.and_eq_true, decide_eq_true_eq] at hok
  obtain ⟨⟨⟨⟨⟨⟨⟨⟨⟨⟨⟨hD0, hD3⟩, k1⟩, k2⟩, k3⟩, k4⟩, k5⟩, k6⟩, k7⟩, k8⟩, k9⟩, k10⟩ := hok
  set polys := polysOf D qs with hpolys
  have hst : Spec.FirstNeighbours D st := ⟨hnd, hlens, by simpa [or_assoc] using k1⟩
  have hmem : ∀ i, qs i ∈ ps := fun i => hperm.subset ((List.mem_ofFn' qs _).2 ⟨i, rfl⟩)
  simp only [List.all_eq_true, Bool.and_eq_true, decide_eq_true_eq, beq_iff_eq] at k2 k3
  have hp : Spec.Polynomials D polys := by
    intro i
    refine ⟨k3 _ (hmem i), fun t ht => ?_⟩
    obtain ⟨t', ht', rfl⟩ := List.mem_map.1 ht
    refine ⟨(PExpr.collected_expand (qs i)).2 t' ht', ?_, fun a ha => (k2 _ (hmem i) t' ht').1 a (List.mem_of_mem_take ha)⟩
    rw [List.length_take, (PExpr.expand_spec (R := ℤ) (qs i)).1 t' ht']
    omega
  have hdim : ∀ i, Spec.InDimension D (qs i) := by
    intro i t ht k hk
    have h1 := (k2 _ (hmem i) t ht).2
    by_cases hkl : k < t.2.length
    · rw [List.getD_eq_getElem _ _ hkl]
      refine h1 _ ?_
      rw [List.mem_drop_iff_getElem]
      exact ⟨k - D, by omega, by congr 1; omega⟩
    · exact List.getD_eq_default _ _ (by omega)
  have hMM : ∀ u : Fin D → K, momentMatrix evP polys (velocity st) u = momentMatrix pev qs (velocities K st D) u := by
    intro u
    ext i q
    exact evP_polysOf hD3 (hdim i) _
  have hsm : setUpShiftMatrix evP polys (velocity (K := K) (D := D) st) = setUpShiftMatrix pev qs (velocities K st D) := by
    have h2 : shiftMatrix evP polys (velocity (K := K) (D := D) st) = shiftMatrix pev qs (velocities K st D) := by
      funext u
      rw [shiftMatrix, shiftMatrix, hMM, hMM]
    unfold setUpShiftMatrix
    rw [h2, hMM]
  rw [← hsm] at hN
  obtain ⟨hd, hNe, -, -⟩ := setUp_ok hN
  have hdu : ∀ u : Fin D → K, (momentMatrix evP polys (velocity (K := K) (D := D) st) u).det ≠ 0 := by
    intro u
    rw [← shiftMatrix_mul hd u, ← hNe, det_mul, hN1, one_mul]
    exact hd
  -- the monomials do not depend on the order
  have hofFn : (List.ofFn polys).Perm (terms D ps) := by
    have := hperm.map fun p : PExpr => p.expand.map fun t => (t.1, t.2.take D)
    rw [List.map_ofFn] at this
    exact this
  have dist : ∀ l, distinguishedB l = true → Distinguished l := by
    intro l hl a ha b hb h1 h2
    unfold distinguishedB at hl
    have := List.all_eq_true.1 (List.all_eq_true.1 hl a ha) b hb
    rw [show CumulantMethod.lexLe (CumulantMethod.sortKey a) (CumulantMethod.sortKey b) = true from h1,
      show CumulantMethod.lexLe (CumulantMethod.sortKey b) (CumulantMethod.sortKey a) = true from h2] at this
    simpa using this
  have hM : monomials polys = monosL (terms D ps) := monosL_perm hofFn (dist _ k4)
  have hE : (if (monomials polys).length = st.length then monomials polys else reducedMonomials st polys) = keptL st (terms D ps) := by
    unfold keptL
    rw [hM]
    split
    · rfl
    · rename_i h
      unfold keptL at k5
      rw [if_neg h] at k5
      exact redL_perm hofFn (dist _ k4) (dist _ k5)
  have hset : ∃ s, setup K D st polys = .ok s ∧ s.exps = fun j : Fin st.length => (keptL st (terms D ps)).getD j [] := by
    rw [← hE]
    refine setup_ok hlens hp hd ?_
    by_cases hq : (monomials polys).length = st.length
    · exact Or.inl hq
    · rw [if_neg hq] at hE
      rw [hM] at hq
      have h3 : D = 3 := by
        rcases Bool.or_eq_true .. ▸ k9 with h | h
        · exact absurd (of_decide_eq_true h) hq
        · exact of_decide_eq_true h
      refine Or.inr ⟨h3, by rw [hM]; exact hq, by rw [hE]; exact k8, by rw [hE]; exact downwardClosed_of_check _ k7, N, hN⟩
  obtain ⟨s, hset, hexps⟩ := hset
  have hknd : (keptL st (terms D ps)).Nodup := by
    unfold keptL
    split <;> exact (CumulantMethod.sortExponents_perm _).nodup_iff.2 (List.nodup_dedup _)
  have hkl : (keptL st (terms D ps)).Pairwise fun a b => a.sum ≤ b.sum := by
    unfold keptL
    split <;> exact sorted_sums _
  obtain ⟨e1, e2, e3, e4⟩ := exps_of_list k8 hknd hkl
  have hdc : Chimera.Spec.DownwardClosed (List.ofFn s.exps) := by
    rw [hexps]
    intro e he a ha
    obtain ⟨j, rfl⟩ := (List.mem_ofFn' _ _).1 he
    obtain ⟨k, hk⟩ := e3 a (downwardClosed_of_check _ k7 _ (e2 j) a ha)
    exact (List.mem_ofFn' _ _).2 ⟨k, hk⟩
  have hdc' : Chimera.Spec.DownwardClosed (monomials polys) := by
    rw [hM]
    exact downwardClosed_of_check _ k6
  have hal : ∀ m ∈ monomials polys, ∃ j, (∀ c ∈ st, Spec.monomial m c = Spec.monomial (s.exps j) c) ∧ b.raw m = b.raw (s.exps j) := by
    intro m hm
    rw [hM] at hm
    have h1 := List.all_eq_true.1 k10 m hm
    rw [List.any_eq_true] at h1
    obtain ⟨r, hr, h1⟩ := h1
    obtain ⟨j, hj⟩ := e3 r hr
    refine ⟨j, ?_⟩
    rw [hexps]
    dsimp only
    rw [hj]
    unfold sameOn at h1
    simp only [Bool.or_eq_true, Bool.and_eq_true, beq_iff_eq, List.all_eq_true, decide_eq_true_eq, List.any_eq_true] at h1
    rcases h1 with rfl | ⟨h1, h2 | ⟨h2, h3⟩⟩
    · exact ⟨fun _ _ => rfl, rfl⟩
    · exact ⟨h1, hiso.1 _ _ h2⟩
    · exact ⟨h1, by rw [hiso.2 _ h2, hiso.2 _ h3]⟩
  have h3 : (monomials polys).length = st.length ∨ D = 3 := by
    rw [hM]
    simpa using k9
  have key := fun u => C94_transforms hD0 hst hp hb h3 hset hdc hdc' hal u ?_ free
  · obtain ⟨⟨t1, g1, -⟩, ⟨t2, g2, -⟩, ⟨t3, g3, -⟩, -⟩ := key 0
    have g4 : ∃ t4, matrix st polys b = .ok t4 := by
      unfold matrix matrixTransform
      rw [hN]
      exact ⟨_, rfl⟩
    obtain ⟨t4, g4⟩ := g4
    refine ⟨t1, t2, t3, t4, g1, g2, g3, g4, fun u t ht => ?_⟩
    obtain ⟨⟨t1', g1', c1⟩, ⟨t2', g2', c2⟩, ⟨t3', g3', c3⟩, c4⟩ := key u
    rw [g1] at g1'; rw [g2] at g2'; rw [g3] at g3'
    cases g1'; cases g2'; cases g3'
    simp only [List.mem_cons, List.not_mem_nil, or_false] at ht
    rcases ht with rfl | rfl | rfl | rfl
    · exact c1
    · exact c2
    · exact c3
    · exact c4 _ g4
  · intro f hf
    have hU := isUnit_iff_ne_zero.2 (hdu u)
    have h0 : momentMatrix evP polys (velocity (K := K) (D := D) st) u *ᵥ f = 0 := by
      funext i
      rw [mulVec, dotProduct]
      refine Eq.trans (Finset.sum_congr rfl fun q _ => ?_) (hf i)
      rw [polyEval_eq, mul_comm]
      rfl
    have := congrArg ((momentMatrix evP polys (velocity (K := K) (D := D) st) u)⁻¹ *ᵥ ·) h0
    simpa [mulVec_mulVec, nonsing_inv_mul _ hU] using this

/-! ### Two dimensions with aliases -/

theorem reducedMonomials_long {st : List (List ℤ)} {polys : Fin st.length → MPoly ℤ} {m : List ℕ} (hm : m ∈ reducedMonomials st polys) :
    3 ≤ m.length := by
  unfold reducedMonomials at hm
  rw [(CumulantMethod.sortExponents_perm _).mem_iff, mem_extract] at hm
  obtain ⟨p, hpm, t, ht, -, rfl⟩ := hm
  unfold reducedPolynomials at hpm
  obtain ⟨p', -, rfl⟩ := List.mem_map.1 hpm
  unfold pad at ht
  obtain ⟨t', -, rfl⟩ := List.mem_map.1 ht
  rw [List.length_append, List.length_replicate]
  omega

/-- C94: below three dimensions, as soon as a set has more monomials than directions (so that aliases have to be removed), the transform by
binomial chimeras raises an `IndexError` in both directions, whatever it is applied to: `extract_monomials` is called without the dimension
(`moments.py:614`) and returns triples. -/
theorem C94_low_dimension_index_error {st : List (List ℤ)} (h0 : 0 < st.length) (hD : D < 3) {polys : Fin st.length → MPoly ℤ}
    (hq : (monomials polys).length ≠ st.length) {b : Background K D} {free : List Char → K} {t : Transform K D st.length}
    (ht : binomial st polys b free = .ok t) (u : Fin D → K) (v : Fin st.length → K) :
    t.forward u v = .error .indexError ∧ t.backward u v = .error .indexError := by
  unfold binomial at ht
  split at ht
  · cases ht
  rename_i s hs
  split at ht
  · cases ht
  cases ht
  have hlong : 3 ≤ (s.exps ⟨0, h0⟩).length := by
    unfold setup at hs
    rw [if_pos hq] at hs
    dsimp only at hs
    split at hs
    · cases hs
    rename_i hl
    rw [not_not] at hl
    split at hs
    · cases hs
    split at hs
    · cases hs
    cases hs
    refine reducedMonomials_long (st := st) (polys := polys) ?_
    dsimp only
    rw [List.getD_eq_getElem _ _ (by rw [hl]; exact h0)]
    exact List.getElem_mem _
  have hstep : ∀ (w : Fin D → K) m, binomialStep w s.exps free m = .error .indexError := by
    intro w m
    unfold binomialStep binomialChimera
    rw [if_pos]
    rw [List.any_eq_true]
    refine ⟨s.exps ⟨0, h0⟩, (List.mem_ofFn' _ _).2 ⟨_, rfl⟩, ?_⟩
    rw [List.length_ofFn, decide_eq_true_eq]
    omega
  exact ⟨by dsimp only; rw [hstep], by dsimp only; rw [hstep]⟩

/-- the constructors with aliases -/
theorem aliases_construct {st : List (List ℤ)} {polys : Fin st.length → MPoly ℤ} {b : Background K D} {free : List Char → K}
    (hq : (monomials polys).length ≠ st.length) (hl : (reducedMonomials st polys).length = st.length) {exps : Fin st.length → List ℕ}
    (he : ∀ j : Fin st.length, (reducedMonomials st polys).getD j [] = exps j) {P : Matrix (Fin st.length) (Fin st.length) K}
    (hP : ∀ i j : Fin st.length, ((coef ((reducedPolynomials st polys).getD i []) (exps j) : ℤ) : K) = P i j) (hdP : P.det ≠ 0)
    {N NP : (Fin D → K) → Matrix (Fin st.length) (Fin st.length) K} (hN : setUpShiftMatrix evM exps (velocity (K := K) (D := D) st) = .ok N)
    (hNP : setUpShiftMatrix evP polys (velocity (K := K) (D := D) st) = .ok NP) :
    (∃ t, matrix st polys b = .ok t) ∧ (∃ t, shift st polys b = .ok t) ∧ (∃ t, fast st polys b = .ok t) ∧
    ∃ t, binomial st polys b free = .ok t := by
  have hexps : (fun j : Fin st.length => (reducedMonomials st polys).getD j []) = exps := funext he
  have hP' : monoToPoly exps (fun i : Fin st.length => (reducedPolynomials st polys).getD i []) = P := by
    ext i j
    exact hP i j
  have hset : ∃ s, setup K D st polys = .ok s ∧ s.exps = exps := by
    unfold setup
    rw [if_pos hq]
    dsimp only
    rw [if_neg (not_not.2 hl), hexps]
    unfold reducedMatrix
    rw [hN, hNP, hP']
    dsimp only
    rw [if_neg]
    · exact ⟨_, rfl, rfl⟩
    · intro h
      have h0 := h 0
      obtain ⟨hd, rfl, -, -⟩ := setUp_ok hNP
      obtain ⟨hd', rfl, -, -⟩ := setUp_ok hN
      have e1 : shiftMatrix evP polys (velocity (K := K) (D := D) st) 0 = 1 := by
        rw [shiftMatrix, mul_nonsing_inv _ (isUnit_iff_ne_zero.2 hd)]
      have e2 : shiftMatrix evM exps (velocity (K := K) (D := D) st) 0 = 1 := by
        rw [shiftMatrix, mul_nonsing_inv _ (isUnit_iff_ne_zero.2 hd')]
      rw [e1, e2, inv_one, Matrix.one_mul, Matrix.mul_one] at h0
      exact hdP h0
  obtain ⟨s, hs, he⟩ := hset
  have hd := (setUp_ok hN).1
  rw [← he] at hN hd
  refine ⟨?_, ?_, ?_, ?_⟩
  · unfold matrix matrixTransform
    rw [hNP]
    exact ⟨_, rfl⟩
  · unfold shift
    rw [hs]
    dsimp only
    rw [hN, if_neg hd]
    exact ⟨_, rfl⟩
  · unfold fast
    rw [hs]
    dsimp only
    rw [hN]
    exact ⟨_, rfl⟩
  · unfold binomial
    rw [hs]
    dsimp only
    rw [if_neg hd]
    exact ⟨_, rfl⟩

namespace Witness
open PExpr

/-- nine polynomials on D2Q9 with ten monomials, `x^4` being an alias of `x^2` -/
def moments : Fin 9 → PExpr := ![1, x, y, x ^ 2, y ^ 2, x * y, x ^ 2 * y, x * y ^ 2, x ^ 2 * y ^ 2 + x ^ 4]

/-- the nine monomials of D2Q9 -/
def monos : Fin 9 → PExpr := fun i =>
  ofExponents (![[0, 0], [1, 0], [0, 1], [2, 0], [0, 2], [1, 1], [2, 1], [1, 2], [2, 2]] i)

def polys : Fin 9 → MPoly ℤ := polysOf 2 moments

abbrev st : List (List ℤ) := Tables.D2Q9_walberla

def exps : Fin 9 → List ℕ :=
  ![[0, 0, 0], [1, 0, 0], [0, 1, 0], [2, 0, 0], [0, 2, 0], [1, 1, 0], [2, 1, 0], [1, 2, 0], [2, 2, 0]]

theorem facts : (monomials (Q := 9) polys).length = 10 ∧ (reducedMonomials st polys).length = 9 ∧
    (∀ j : Fin 9, (reducedMonomials st polys).getD j [] = exps j) ∧
    ∀ i j : Fin 9, coef ((reducedPolynomials st polys).getD i []) (exps j) = if i = j ∨ (i = 8 ∧ j = 3) then 1 else 0 := by
  decide +kernel

theorem cube (q : Fin 9) (a : Fin 2) : velocity (K := ℚ) (D := 2) st q a ^ 3 = velocity st q a := by
  unfold velocity
  have : ∀ q : Fin 9, ∀ a : Fin 2, ((st.get q).getD a 0) ^ 3 = (st.get q).getD a 0 := by decide
  exact_mod_cast congrArg (Int.cast : ℤ → ℚ) (this q a)

theorem evM_rows (v : Fin 2 → ℚ) (i : Fin 9) : evM (exps i) v =
    ![1, v 0, v 1, v 0 ^ 2, v 1 ^ 2, v 0 * v 1, v 0 ^ 2 * v 1, v 0 * v 1 ^ 2, v 0 ^ 2 * v 1 ^ 2] i := by
  fin_cases i <;> simp [evM, exps, Fin.prod_univ_two]

theorem evP_rows (v : Fin 2 → ℚ) (i : Fin 9) : evP (polys i) v =
    ![1, v 0, v 1, v 0 ^ 2, v 1 ^ 2, v 0 * v 1, v 0 ^ 2 * v 1, v 0 * v 1 ^ 2, v 0 ^ 2 * v 1 ^ 2 + v 0 ^ 4] i := by
  have h : polys = ![[(1, [0, 0])], [(1, [1, 0])], [(1, [0, 1])], [(1, [2, 0])], [(1, [0, 2])], [(1, [1, 1])], [(1, [2, 1])],
      [(1, [1, 2])], [(1, [2, 2]), (1, [4, 0])]] := by decide +kernel
  rw [h]
  fin_cases i <;> simp [evP, evM, Fin.prod_univ_two]

/-- the shift matrix of the monomials -/
def N (w : Fin 2 → ℚ) : Matrix (Fin 9) (Fin 9) ℚ :=
  let u := w 0
  let v := w 1
  !![1, 0, 0, 0, 0, 0, 0, 0, 0;
     -u, 1, 0, 0, 0, 0, 0, 0, 0;
     -v, 0, 1, 0, 0, 0, 0, 0, 0;
     u ^ 2, -2 * u, 0, 1, 0, 0, 0, 0, 0;
     v ^ 2, 0, -2 * v, 0, 1, 0, 0, 0, 0;
     u * v, -v, -u, 0, 0, 1, 0, 0, 0;
     -u ^ 2 * v, 2 * u * v, u ^ 2, -v, 0, -2 * u, 1, 0, 0;
     -u * v ^ 2, v ^ 2, 2 * u * v, 0, -u, -2 * v, 0, 1, 0;
     u ^ 2 * v ^ 2, -2 * u * v ^ 2, -2 * u ^ 2 * v, v ^ 2, u ^ 2, 4 * u * v, -2 * v, -2 * u, 1]

/-- the shift matrix of the polynomials -/
def NP (w : Fin 2 → ℚ) : Matrix (Fin 9) (Fin 9) ℚ :=
  let u := w 0
  let v := w 1
  !![1, 0, 0, 0, 0, 0, 0, 0, 0;
     -u, 1, 0, 0, 0, 0, 0, 0, 0;
     -v, 0, 1, 0, 0, 0, 0, 0, 0;
     u ^ 2, -2 * u, 0, 1, 0, 0, 0, 0, 0;
     v ^ 2, 0, -2 * v, 0, 1, 0, 0, 0, 0;
     u * v, -v, -u, 0, 0, 1, 0, 0, 0;
     -u ^ 2 * v, 2 * u * v, u ^ 2, -v, 0, -2 * u, 1, 0, 0;
     -u * v ^ 2, v ^ 2, 2 * u * v, 0, -u, -2 * v, 0, 1, 0;
     u ^ 2 * v ^ 2 + u ^ 4, -2 * u * v ^ 2 - 4 * u - 4 * u ^ 3, -2 * u ^ 2 * v, v ^ 2 + 6 * u ^ 2, u ^ 2, 4 * u * v, -2 * v, -2 * u, 1]

theorem det_A0 : (momentMatrix (Q := 9) evM exps (velocity (K := ℚ) (D := 2) st) 0).det ≠ 0 := by
  have he : ("D2Q9", "walberla", st) ∈ Tables.predefined := by decide +kernel
  obtain ⟨ps, hps, hperm⟩ : ∃ ps, defaultMomentSet 2 9 = some ps ∧ (List.ofFn monos).Perm ps := ⟨_, rfl, by decide +kernel⟩
  have hu : Spec.Unisolvent st ps := (C47_moment_sets_are_bases _ he).1 ps hps
  have h := det_of_unisolvent (K := ℚ) st 2 (by decide) hu monos hperm
  have hM : momentMatrix (Q := 9) pev monos (velocities ℚ st 2) 0 = momentMatrix (Q := 9) evM exps (velocity (K := ℚ) (D := 2) st) 0 := by
    ext i q
    refine (momentMatrix_zero (Q := 9) i q).trans (Eq.trans ?_ (momentMatrix_zero (Q := 9) i q).symm)
    rw [evM_rows]
    show pev (monos i) (velocity (K := ℚ) (D := 2) st q) = _
    generalize velocity (K := ℚ) (D := 2) st q = v
    have h2 : ∀ n m : ℕ, pev (ofExponents [n, m]) v = v 0 ^ n * v 1 ^ m := by
      intro n m
      show ((1 : ℤ) : ℚ) * v 0 ^ n * v 1 ^ m = _
      norm_num
    fin_cases i <;> refine (h2 _ _).trans ?_ <;> simp
  rw [← hM]
  exact h

theorem evP_eq (q : Fin 9) (i : Fin 9) : evP (polys i) (velocity (K := ℚ) (D := 2) st q) =
    ∑ j, (if i = j ∨ (i = 8 ∧ j = 3) then (1 : ℚ) else 0) * evM (exps j) (velocity (K := ℚ) (D := 2) st q) := by
  have hx := cube q 0
  rw [evP_rows, Fin.sum_univ_succ, Fin.sum_univ_eight]
  simp only [evM_rows]
  generalize velocity (K := ℚ) (D := 2) st q 0 = X at *
  generalize velocity (K := ℚ) (D := 2) st q 1 = Y at *
  fin_cases i <;> simp [Fin.ext_iff]
  linear_combination X * hx

/-- the change between polynomials and monomials -/
def P : Matrix (Fin 9) (Fin 9) ℚ := fun i j => if i = j ∨ (i = 8 ∧ j = 3) then 1 else 0

theorem det_P : P.det = 1 := by
  rw [det_lower]
  · exact Finset.prod_eq_one fun i _ => by simp [P]
  · intro i j hij
    revert i j
    unfold P
    decide

theorem B0_eq : momentMatrix (Q := 9) evP polys (velocity (K := ℚ) (D := 2) st) 0 =
    P * momentMatrix (Q := 9) evM exps (velocity (K := ℚ) (D := 2) st) 0 := by
  ext i q
  rw [mul_apply]
  refine (momentMatrix_zero (Q := 9) i q).trans ((evP_eq q i).trans ?_)
  exact Finset.sum_congr rfl fun j _ => congrArg (_ * ·) (momentMatrix_zero (Q := 9) j q).symm

theorem det_B0 : (momentMatrix (Q := 9) evP polys (velocity (K := ℚ) (D := 2) st) 0).det ≠ 0 := by
  rw [B0_eq, det_mul, det_P, one_mul]
  exact det_A0

theorem setUp_N : setUpShiftMatrix (Q := 9) evM exps (velocity (K := ℚ) (D := 2) st) = .ok N := by
  have hsh : shiftMatrix (Q := 9) evM exps (velocity (K := ℚ) (D := 2) st) = N := by
    funext w
    refine shiftMatrix_eq (Q := 9) det_A0 w _ fun i q => ?_
    rw [Fin.sum_univ_succ, Fin.sum_univ_eight]
    simp only [evM_rows, Pi.sub_apply]
    generalize velocity (K := ℚ) (D := 2) st q 0 = X at *
    generalize velocity (K := ℚ) (D := 2) st q 1 = Y at *
    fin_cases i <;> simp [N] <;> ring
  have hlow : IsLower N := by
    intro w i j hij
    fin_cases i <;> fin_cases j <;> first | rfl | exact absurd hij (by decide)
  unfold setUpShiftMatrix
  rw [hsh, if_neg det_A0, if_neg (not_not.2 hlow), if_neg (not_not.2 fun w => ?_)]
  simp [Fin.sum_univ_succ, N]
  norm_num

theorem setUp_NP : setUpShiftMatrix (Q := 9) evP polys (velocity (K := ℚ) (D := 2) st) = .ok NP := by
  have hsh : shiftMatrix (Q := 9) evP polys (velocity (K := ℚ) (D := 2) st) = NP := by
    funext w
    refine shiftMatrix_eq (Q := 9) det_B0 w _ fun i q => ?_
    have hx := cube q 0
    rw [Fin.sum_univ_succ, Fin.sum_univ_eight]
    simp only [evP_rows, Pi.sub_apply]
    generalize velocity (K := ℚ) (D := 2) st q 0 = X at *
    generalize velocity (K := ℚ) (D := 2) st q 1 = Y at *
    fin_cases i <;> simp [NP] <;> first | ring1 | linear_combination (-4 * w 0) * hx
  have hlow : IsLower NP := by
    intro w i j hij
    fin_cases i <;> fin_cases j <;> first | rfl | exact absurd hij (by decide)
  unfold setUpShiftMatrix
  rw [hsh, if_neg det_B0, if_neg (not_not.2 hlow), if_neg (not_not.2 fun w => ?_)]
  simp [Fin.sum_univ_succ, NP]
  norm_num

/-- C94: this happens: a set of nine polynomials on D2Q9 with the monomials of D2Q9 and `x^4`, which determines the populations. The
transforms can be constructed, but the one by binomial chimeras never computes anything. -/
theorem C94_2d_aliases (b : Background ℚ 2) (free : List Char → ℚ) :
    (momentMatrix (Q := 9) evP polys (velocity (K := ℚ) (D := 2) st) 0).det ≠ 0 ∧ (∃ t, matrix st polys b = .ok t) ∧
    (∃ t, shift st polys b = .ok t) ∧ (∃ t, fast st polys b = .ok t) ∧ ∃ t, binomial st polys b free = .ok t ∧
      ∀ u v, t.forward u v = .error .indexError ∧ t.backward u v = .error .indexError := by
  obtain ⟨f1, f2, f3, f4⟩ := facts
  have hq : (monomials polys).length ≠ st.length := by rw [f1]; decide
  have hP : ∀ i j : Fin 9, ((coef ((reducedPolynomials st polys).getD i []) (exps j) : ℤ) : ℚ) = P i j := by
    intro i j
    rw [f4]
    unfold P
    split <;> simp
  obtain ⟨h1, h2, h3, t, ht⟩ := aliases_construct (st := st) (polys := polys) (b := b) (free := free) hq f2 f3 hP
    (fun h => one_ne_zero (det_P.symm.trans h)) setUp_N setUp_NP
  exact ⟨det_B0, h1, h2, h3, t, ht, fun u v => C94_low_dimension_index_error (by decide) (by decide) hq ht u v⟩

end Witness

/-! ### Backgrounds -/

/-- the moments of populations, as a background -/
def discrete (st : List (List ℤ)) (w : Fin st.length → K) : Background K D :=
  { raw := fun e => ∑ q, w q * evM e (velocity (K := K) (D := D) st q)
    central := fun u e => ∑ q, w q * evM e (velocity (K := K) (D := D) st q - u) }

/-- a discrete background is consistent -/
theorem consistent_discrete (st : List (List ℤ)) (w : Fin st.length → K) : Spec.Consistent (discrete (D := D) st w) := by
  intro u e he
  unfold discrete
  dsimp only
  simp only [evM_shift u _ e he]
  exact (shift_sum (List.ofFn fun a => -u a) Finset.univ w (fun q a => evM a (velocity st q)) e).symm

/-- without background -/
theorem no_background : Spec.Consistent (K := K) (D := D) ⟨fun _ => 0, fun _ _ => 0⟩ ∧
    Spec.Isotropic (K := K) (D := D) ⟨fun _ => 0, fun _ _ => 0⟩ := by
  refine ⟨fun u e he => ?_, fun _ _ _ => rfl, fun _ _ => rfl⟩
  have := shift_sum (List.ofFn fun a => -u a) (Finset.univ : Finset (Fin 0)) (fun _ => (0 : K)) (fun _ _ => 0) e
  simpa using this.symm

/-- the cascaded set of D3Q15, which has 23 monomials, without background -/
example (free : List Char → ℚ) : ∃ (qs : Fin 15 → PExpr) (t1 : Transform ℚ 3 15),
    binomial (K := ℚ) (D := 3) Tables.D3Q15_walberla (polysOf 3 qs) ⟨fun _ => 0, fun _ _ => 0⟩ free = .ok t1 ∧
    (monomials (polysOf 3 qs)).length = 23 ∧
    ∀ u, Computes (st := Tables.D3Q15_walberla) (polysOf 3 qs) (⟨fun _ => 0, fun _ _ => 0⟩ : Background ℚ 3) u t1 := by
  have he : ("D3Q15", "walberla", Tables.D3Q15_walberla) ∈ Tables.predefined := by decide +kernel
  obtain ⟨g, hg, hl, hs, hm⟩ : ∃ g, cascadedMomentSets Tables.D3Q15_walberla = some g ∧ g.flatten.length = 15 ∧
    (∀ i j : Fin 15, i ≤ j → Spec.degree (g.flatten.getD i 0) ≤ Spec.degree (g.flatten.getD j 0)) ∧
    (monomials (polysOf 3 fun i : Fin 15 => g.flatten.getD i 0)).length = 23 :=
    ⟨_, rfl, by decide +kernel, by decide +kernel, by decide +kernel⟩
  have hperm : List.ofFn (fun i : Fin 15 => g.flatten.getD i 0) = g.flatten := by
    refine List.ext_getElem (by rw [List.length_ofFn, hl]) fun n h1 h2 => ?_
    rw [List.getElem_ofFn, List.getD_eq_getElem _ _ h2]
  obtain ⟨t1, t2, t3, t4, -, h2, -, -, h⟩ := C94_offered_sets (K := ℚ) _ he g.flatten (Or.inr ⟨g, hg, rfl⟩)
    (fun i => g.flatten.getD i 0) (List.Perm.of_eq hperm) hs _ no_background.1 no_background.2 free
  exact ⟨fun i => g.flatten.getD i 0, t2, h2, hm, fun u => h u t2 (by simp)⟩

end CentralTransforms
end Lbm
