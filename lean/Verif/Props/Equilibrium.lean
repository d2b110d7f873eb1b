/-
C20: moments of the discrete Maxwellian.
-/
import Verif.Props.Maxwellian

namespace Lbm

open Spec

section
variable {K : Type} [Field K]

theorem eTimesU_eq {D : ℕ} (v : List ℤ) (u : Fin D → K) (hv : v.length = D) :
    eTimesU v (List.ofFn u) = dot (fun a : Fin D => ((v.getD a 0 : ℤ) : K)) u := by
  unfold eTimesU
  subst hv
  have h := foldl_zip_sum (List.ofFn u) v (fun (a : K) (b : ℤ) => (b : K) * a) 0 (by simp) 0
  have e : ∀ (l : List ℤ) (k : List K) (z : K), (List.zip l k).foldl (fun s p => s + (p.1 : K) * p.2) z =
      (List.zip k l).foldl (fun s p => s + (p.2 : K) * p.1) z := by
    intro l
    induction l with
    | nil => intro k z; cases k <;> rfl
    | cons a l ih =>
      intro k z
      cases k with
      | nil => rfl
      | cons b k => rw [List.zip_cons_cons, List.zip_cons_cons, List.foldl_cons, List.foldl_cons, ih]
  rw [e, h, zero_add]
  refine Finset.sum_congr rfl fun a _ => ?_
  simp [List.getD_eq_getElem?_getD]

theorem uTimesU_eq {D : ℕ} (u : Fin D → K) : uTimesU (List.ofFn u) = dot u u := by
  unfold uTimesU dot
  have : ∀ (l : List K) (z : K), l.foldl (fun s a => s + a * a) z = z + (l.map fun a => a * a).sum := by
    intro l
    induction l with
    | nil => intro z; simp
    | cons a l ih => intro z; rw [List.foldl_cons, ih, List.map_cons, List.sum_cons, add_assoc]
  rw [this, zero_add, List.map_ofFn, List.sum_ofFn]
  rfl

/-- coefficient of the second / third order terms -/
def g2 (order : ℕ) : K := if order ≤ 1 then 0 else 1
def g3 (order : ℕ) : K := if order ≤ 2 then 0 else 1

/-- density in front of / inside the bracket -/
def rhoOut (comp : Bool) (rho : K) : K := if comp then rho else 1
def rhoIn (comp : Bool) (rho : K) : K := if comp then 1 else rho

theorem discreteEquilibrium_eq {D : ℕ} (v : List ℤ) (u : Fin D → K) (hv : v.length = D) (rho w cs : K) (order : ℕ)
    (comp : Bool) : discreteEquilibrium v (List.ofFn u) rho w order cs comp =
      rhoOut comp rho * w * (rhoIn comp rho + dot (fun a : Fin D => ((v.getD a 0 : ℤ) : K)) u / cs +
        g2 order * (1 / 2 / cs ^ 2 * dot (fun a : Fin D => ((v.getD a 0 : ℤ) : K)) u ^ 2 - 1 / 2 / cs * dot u u) +
        g3 order * (1 / 6 / cs ^ 3 * dot (fun a : Fin D => ((v.getD a 0 : ℤ) : K)) u ^ 3 -
          1 / 2 / cs ^ 2 * dot u u * dot (fun a : Fin D => ((v.getD a 0 : ℤ) : K)) u)) := by
  unfold discreteEquilibrium
  rw [eTimesU_eq v u hv, uTimesU_eq]
  have hi : (if (!comp) = true then rho else (1 : K)) = rhoIn comp rho := by cases comp <;> rfl
  simp only [hi]
  unfold g2 g3
  by_cases h1 : order ≤ 1
  · have h2 : order ≤ 2 := by omega
    simp only [h1, h2, if_true]
    unfold rhoOut
    ring
  · by_cases h2 : order ≤ 2
    · simp only [h1, h2, if_true, if_false]; unfold rhoOut; ring
    · simp only [h1, h2, if_false]; unfold rhoOut; ring

end

section
variable {K : Type} [Field K] [CharZero K] {Q D : ℕ} {c : Fin Q → Fin D → K} {w : Fin Q → K} {cs : K}

/-- the equilibrium of velocity `q`, as a polynomial in `c·u` -/
def eqPoly (c : Fin Q → Fin D → K) (w : Fin Q → K) (cs ro ri G H : K) (u : Fin D → K) (q : Fin Q) : K :=
  ro * w q * (ri + dot (c q) u / cs + G * (1 / 2 / cs ^ 2 * dot (c q) u ^ 2 - 1 / 2 / cs * dot u u) +
    H * (1 / 6 / cs ^ 3 * dot (c q) u ^ 3 - 1 / 2 / cs ^ 2 * dot u u * dot (c q) u))

theorem eqPoly_m0 (h : Isotropic3 c w cs) (hcs : cs ≠ 0) (ro ri G H : K) (u : Fin D → K) :
    ∑ q, eqPoly c w cs ro ri G H u q = ro * ri := by
  have e : ∀ q, eqPoly c w cs ro ri G H u q = (ro * ri - ro * G * (1 / 2 / cs * dot u u)) * w q +
      (ro / cs - ro * H * (1 / 2 / cs ^ 2 * dot u u)) * (w q * dot (c q) u) +
      (ro * G * (1 / 2 / cs ^ 2)) * (w q * dot (c q) u * dot (c q) u) +
      (ro * H * (1 / 6 / cs ^ 3)) * (w q * dot (c q) u * dot (c q) u * dot (c q) u) := fun q => by
    unfold eqPoly; ring
  simp only [e, Finset.sum_add_distrib, ← Finset.mul_sum, h.m0, h.c1, h.c2, h.c3]
  field_simp
  ring

theorem eqPoly_m1 (h : Isotropic3 c w cs) (hcs : cs ≠ 0) (ro ri G H : K) (u : Fin D → K) (a : Fin D)
    (hH : H = 0 ∨ Isotropic5 c w cs) : ∑ q, c q a * eqPoly c w cs ro ri G H u q = ro * u a := by
  have e : ∀ q, c q a * eqPoly c w cs ro ri G H u q = (ro * ri - ro * G * (1 / 2 / cs * dot u u)) * (w q * c q a) +
      (ro / cs - ro * H * (1 / 2 / cs ^ 2 * dot u u)) * (w q * dot (c q) (fun b => δ a b) * dot (c q) u) +
      (ro * G * (1 / 2 / cs ^ 2)) * (w q * dot (c q) (fun b => δ a b) * dot (c q) u * dot (c q) u) +
      (ro * (1 / 6 / cs ^ 3)) * (H * (w q * dot (c q) (fun b => δ a b) * dot (c q) u * dot (c q) u * dot (c q) u)) :=
    fun q => by rw [← comp_eq_dot]; unfold eqPoly; ring
  simp only [e, Finset.sum_add_distrib, ← Finset.mul_sum, h.m1, h.c2, h.c3, dot_δ]
  rcases hH with hH | h5
  · subst hH; field_simp; ring
  · rw [h5.c4, dot_δ]; field_simp; ring

theorem eqPoly_m2 (h : Isotropic3 c w cs) (hcs : cs ≠ 0) (ro ri G H : K) (u : Fin D → K) (a b : Fin D)
    (hG : (G = 0 ∧ H = 0) ∨ Isotropic5 c w cs) :
    ∑ q, c q a * c q b * eqPoly c w cs ro ri G H u q = ro * (ri * cs * δ a b + G * (u a * u b)) := by
  have e : ∀ q, c q a * c q b * eqPoly c w cs ro ri G H u q =
      (ro * ri - ro * G * (1 / 2 / cs * dot u u)) * (w q * c q a * c q b) +
      (ro / cs - ro * H * (1 / 2 / cs ^ 2 * dot u u)) *
        (w q * dot (c q) (fun d => δ a d) * dot (c q) (fun d => δ b d) * dot (c q) u) +
      (ro * (1 / 2 / cs ^ 2)) *
        (G * (w q * dot (c q) (fun d => δ a d) * dot (c q) (fun d => δ b d) * dot (c q) u * dot (c q) u)) +
      (ro * (1 / 6 / cs ^ 3)) * (H *
        (w q * dot (c q) (fun d => δ a d) * dot (c q) (fun d => δ b d) * dot (c q) u * dot (c q) u * dot (c q) u)) :=
    fun q => by rw [← comp_eq_dot, ← comp_eq_dot]; unfold eqPoly; ring
  simp only [e, Finset.sum_add_distrib, ← Finset.mul_sum, h.m2, h.c3]
  rcases hG with ⟨hG, hH⟩ | h5
  · subst hG hH; ring
  · have hs : (δ b a : K) = δ a b := by unfold δ; simp only [eq_comm]
    rw [h5.c4, h5.c5]
    simp only [dot_δ, hs]
    field_simp
    ring

end

/-! ### The populations of the code -/

variable {K : Type} [Field K] [CharZero K]

theorem predefined_rectangular : ∀ e ∈ Tables.predefined, ∀ c ∈ e.2.2, c.length = (e.2.2.headD []).length := by
  decide +kernel

theorem discreteMaxwellian_getD (st : List (List ℤ)) (hst : ∀ c ∈ st, c.length = (st.headD []).length)
    (u : Fin (st.headD []).length → K) (rho : K) (order : ℕ) (comp : Bool) (ws : List ℚ) (hl : ws.length = st.length)
    (hws : getWeights st = some ws) :
    ∃ l, discreteMaxwellian st (List.ofFn u) rho order (1 / 3) comp = some l ∧ l.length = st.length ∧
      ∀ q : Fin st.length, l.getD q 0 = eqPoly (vel st (st.headD []).length) (weightVec st ws) (1 / 3)
        (rhoOut comp rho) (rhoIn comp rho) (g2 order) (g3 order) u q := by
  unfold discreteMaxwellian
  rw [hws]
  refine ⟨_, rfl, by simp [hl], fun q => ?_⟩
  have hq : q.val < (List.zip ws st).length := by rw [List.length_zip, hl, min_self]; exact q.isLt
  rw [List.getD_eq_getElem?_getD, List.getElem?_map, List.getElem?_eq_getElem hq]
  simp only [Option.map_some, Option.getD_some, List.getElem_zip]
  have ht : (List.ofFn u).take (st.headD []).length = List.ofFn u := List.take_of_length_le (by simp)
  rw [ht, discreteEquilibrium_eq _ u (hst _ (List.getElem_mem _))]
  unfold eqPoly weightVec
  have hq' : q.val < ws.length := by rw [hl]; exact q.isLt
  have hw : ws.getD q.val 0 = ws[q.val] := by
    rw [List.getD_eq_getElem?_getD, List.getElem?_eq_getElem hq', Option.getD_some]
  have hv : vel (K := K) st (st.headD []).length q = fun a => ((st[q.val].getD a.val 0 : ℤ) : K) := rfl
  rw [hw, hv]

/-- C20: the populations of `DiscreteHydrodynamicMaxwellian` on every predefined stencil with weights. `ρ_out` is `ρ`
in the compressible and 1 in the incompressible case. The zeroth moment is `ρ` (minus 1 in the deviation form), the first
is `ρ_out u` (third order terms need fifth-order isotropy, i.e. a stencil other than D3Q7), the second is
`ρ/3 δ + ρ_out u u` (minus 1/3 δ). -/
theorem C20_maxwellian_moments : ∀ e ∈ Tables.predefined, (getWeights e.2.2).isSome →
    ∀ (u : Fin (e.2.2.headD []).length → K) (rho : K) (order : Option ℕ) (comp dev : Bool),
    ∃ l, maxwellianPopulations e.2.2 (List.ofFn u) rho order (1 / 3) comp dev = some l ∧ l.length = e.2.2.length ∧
      (∑ q : Fin e.2.2.length, l.getD q 0 = rho - if dev then 1 else 0) ∧
      (order.getD 4 ≤ 2 ∨ e.2.2.length ≠ 7 → ∀ a, ∑ q : Fin e.2.2.length, vel e.2.2 _ q a * l.getD q 0 =
        (if comp then rho else 1) * u a) ∧
      (2 ≤ order.getD 4 → e.2.2.length ≠ 7 → ∀ a b,
        ∑ q : Fin e.2.2.length, vel e.2.2 _ q a * vel e.2.2 _ q b * l.getD q 0 =
          1 / 3 * (rho - if dev then 1 else 0) * δ a b + (if comp then rho else 1) * (u a * u b)) ∧
      (order.getD 4 ≤ 1 → ∀ a b : Fin (e.2.2.headD []).length, ∑ q : Fin e.2.2.length, vel e.2.2 _ q a * vel e.2.2 _ q b * l.getD q 0 =
          1 / 3 * (rho - if dev then 1 else 0) * δ a b) := by
  intro e he hsome u rho order comp dev
  obtain ⟨ws, hws⟩ := Option.isSome_iff_exists.1 hsome
  obtain ⟨hl, h3, h5⟩ := C20_weights_isotropic (K := K) e he ws hws
  have hcs : (1 / 3 : K) ≠ 0 := by norm_num
  obtain ⟨p, hp, hpl, hpq⟩ := discreteMaxwellian_getD e.2.2 (predefined_rectangular e he) u rho (order.getD 4) comp ws
    hl hws
  obtain ⟨s, hs, hsl, hsq⟩ := discreteMaxwellian_getD (K := K) e.2.2 (predefined_rectangular e he) (fun _ => 0) 1 0
    false ws hl hws
  rw [List.ofFn_const] at hs
  have hio : rhoOut comp rho * rhoIn comp rho = rho := by cases comp <;> simp [rhoOut, rhoIn]
  have hro : rhoOut comp rho = if comp then rho else 1 := rfl
  have hg2 : 2 ≤ order.getD 4 → g2 (order.getD 4) = (1 : K) := fun h => by unfold g2; rw [if_neg (by omega)]
  have hg2' : order.getD 4 ≤ 1 → g2 (order.getD 4) = (0 : K) := fun h => by unfold g2; rw [if_pos (by omega)]
  have hg3 : order.getD 4 ≤ 2 → g3 (order.getD 4) = (0 : K) := fun h => by unfold g3; rw [if_pos (by omega)]
  have hr1 : rhoOut false (1 : K) = 1 := rfl
  have hr2 : rhoIn false (1 : K) = 1 := rfl
  have hb0 : g2 0 = (0 : K) := rfl
  have hb1 : g3 0 = (0 : K) := rfl
  -- the moments of the absolute populations
  have P0 := eqPoly_m0 h3 hcs (rhoOut comp rho) (rhoIn comp rho) (g2 (order.getD 4)) (g3 (order.getD 4)) u
  have P1 := fun a hH => eqPoly_m1 h3 hcs (rhoOut comp rho) (rhoIn comp rho) (g2 (order.getD 4)) (g3 (order.getD 4)) u a hH
  have P2 := fun a b hH => eqPoly_m2 h3 hcs (rhoOut comp rho) (rhoIn comp rho) (g2 (order.getD 4)) (g3 (order.getD 4)) u
    a b hH
  have S0 := eqPoly_m0 h3 hcs 1 1 0 0 (fun _ => 0)
  have S1 := fun a => eqPoly_m1 h3 hcs 1 1 0 0 (fun _ => 0) a (.inl rfl)
  have S2 := fun a b => eqPoly_m2 h3 hcs 1 1 0 0 (fun _ => 0) a b (.inl ⟨rfl, rfl⟩)
  unfold maxwellianPopulations
  simp only []
  rw [hp]
  cases dev with
  | false =>
    refine ⟨p, rfl, hpl, ?_, ?_, ?_, ?_⟩
    · simp only [hpq, P0, hio]; simp
    · intro h a
      simp only [hpq]
      rw [P1 a (h.imp hg3 h5), hro]
    · intro h h7 a b
      simp only [hpq]
      rw [P2 a b (.inr (h5 h7)), hg2 h, ← hro]
      simp only [Bool.false_eq_true, if_false]
      linear_combination (1 / 3 * δ a b) * hio
    · intro h a b
      simp only [hpq]
      rw [P2 a b (.inl ⟨hg2' h, hg3 (by omega)⟩), hg2' h]
      simp only [Bool.false_eq_true, if_false]
      linear_combination (1 / 3 * δ a b) * hio
  | true =>
    refine ⟨List.zipWith (fun f s => f - s) p s, by rw [hs]; rfl, by simp [hpl, hsl], ?_⟩
    have hq : ∀ q : Fin e.2.2.length, (List.zipWith (fun f s => f - s) p s).getD q 0 =
        p.getD q 0 - s.getD q 0 := by
      intro q
      have h1 : q.val < p.length := by rw [hpl]; exact q.isLt
      have h2 : q.val < s.length := by rw [hsl]; exact q.isLt
      simp [List.getD_eq_getElem?_getD, List.getElem?_zipWith, List.getElem?_eq_getElem h1,
        List.getElem?_eq_getElem h2]
    simp only [hq, hpq, hsq, hr1, hr2, hb0, hb1, mul_sub, Finset.sum_sub_distrib]
    refine ⟨?_, ?_, ?_, ?_⟩
    · rw [P0, S0, hio]; simp
    · intro h a
      rw [P1 a (h.imp hg3 h5), S1, hro]; simp
    · intro h h7 a b
      rw [P2 a b (.inr (h5 h7)), S2, hg2 h, ← hro]
      simp only [if_true]
      linear_combination (1 / 3 * δ a b) * hio
    · intro h a b
      rw [P2 a b (.inl ⟨hg2' h, hg3 (by omega)⟩), S2, hg2' h]
      simp only [if_true]
      linear_combination (1 / 3 * δ a b) * hio

/-- C20: the background distribution consists of the lattice weights, for every order. -/
theorem C20_background_is_weights : ∀ e ∈ Tables.predefined, ∀ ws ∈ getWeights e.2.2, ∀ order : Option ℕ,
    ∃ l, maxwellianBackground (K := K) e.2.2 order (1 / 3) = some l ∧ l = ws.map (fun w : ℚ => (w : K)) := by
  intro e he ws hws order
  obtain ⟨hl, -, -⟩ := C20_weights_isotropic (K := K) e he ws hws
  obtain ⟨s, hs, hsl, hsq⟩ := discreteMaxwellian_getD (K := K) e.2.2 (predefined_rectangular e he) (fun _ => 0) 1
    (order.getD 4) true ws hl hws
  rw [List.ofFn_const] at hs
  unfold maxwellianBackground maxwellianPopulations
  simp only []
  rw [hs]
  refine ⟨s, rfl, List.ext_getElem (by rw [hsl, List.length_map, hl]) fun i h1 h2 => ?_⟩
  have := hsq ⟨i, by rw [← hsl]; exact h1⟩
  rw [List.getD_eq_getElem?_getD, List.getElem?_eq_getElem h1, Option.getD_some] at this
  rw [this, List.getElem_map]
  have hi : i < ws.length := by simpa using h2
  have hw : weightVec (K := K) e.2.2 ws ⟨i, by rw [← hsl]; exact h1⟩ = ((ws[i] : ℚ) : K) := by
    simp [weightVec, List.getD_eq_getElem?_getD, List.getElem?_eq_getElem hi]
  unfold eqPoly
  rw [hw]
  have hd : ∀ x : Fin (e.2.2.headD []).length → K, dot x (fun _ => 0) = 0 := fun x => by simp [dot]
  simp [hd, rhoOut, rhoIn]

/-- a concrete case: third order, compressible, D2Q9 -/
example : ∃ l : List ℚ, maxwellianPopulations Tables.D2Q9_uk [1/10, -1/5] 2 (some 3) (1/3) true false = some l ∧
    l.length = 9 ∧ l.sum = 2 ∧ l.getD 0 0 ≠ 8 / 9 := by
  refine ⟨_, rfl, ?_⟩
  decide +kernel

end Lbm
