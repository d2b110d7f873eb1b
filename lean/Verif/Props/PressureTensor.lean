import Verif.PressureTensor
import Mathlib.Algebra.CharZero.Defs
import Mathlib.Tactic.Ring
import Mathlib.Tactic.LinearCombination
import Mathlib.Tactic.FieldSimp
import Mathlib.Algebra.MvPolynomial.Basic
import Mathlib.Algebra.MvPolynomial.Derivation
import Mathlib.RingTheory.Derivation.Lie
import Mathlib.Tactic.NormNum

/-!
# Properties of the pressure tensor

C64: the divergence of the pressure tensor is the force of the chemical potentials, for every free energy with constant
gradient coefficients and all fields; both ways of writing the interface part agree; the tensor is symmetric.
-/

namespace Lbm
namespace PhaseField

open scoped BigOperators

section
variable {K : Type} [Field K] [CharZero K] {n D : ℕ} {R : Type} [CommRing R] [Algebra K R]

/-! ## Specification -/

/-- The energy of the gradient products, for any product `G` of two gradients. -/
def gradientEnergy (products : List (K × List (Option (Fin n)))) (G : Fin n → Fin n → R) : R :=
  (products.map fun p => match p.2 with
    | [some i, some j] => algebraMap K R p.1 * G i j
    | _ => 0).sum

/-! ## Helpers -/

omit [CharZero K] in
theorem gammaAt_eq (gamma : Fin n × Fin n → K) (i j : Fin n) : gammaAt gamma i j = gamma (min i j, max i j) := by
  unfold gammaAt
  split_ifs with h
  · rw [min_eq_left h.le, max_eq_right h.le]
  · rw [min_eq_right (not_lt.1 h), max_eq_left (not_lt.1 h)]

omit [CharZero K] in
theorem gammaAt_symm (gamma : Fin n × Fin n → K) (i j : Fin n) : gammaAt gamma i j = gammaAt gamma j i := by
  rw [gammaAt_eq, gammaAt_eq, min_comm, max_comm]

theorem minmax_eq {i j a b : Fin n} : (min a b, max a b) = (min i j, max i j) ↔ (a = i ∧ b = j) ∨ (a = j ∧ b = i) := by
  rw [Prod.mk.injEq]
  constructor
  · rintro ⟨h1, h2⟩
    rcases le_total a b with h | h <;> rcases le_total i j with h' | h' <;> simp_all
  · rintro (⟨rfl, rfl⟩ | ⟨rfl, rfl⟩)
    · exact ⟨rfl, rfl⟩
    · exact ⟨min_comm _ _, max_comm _ _⟩

/-- The value of a product under `H`, counted in both orders. -/
def bothOrders (H : Fin n → Fin n → R) (p : K × List (Option (Fin n))) : R :=
  match p.2 with
  | [some i, some j] => algebraMap K R p.1 * (H i j + H j i)
  | _ => 0

omit [CharZero K] in
theorem loop_sum (H : Fin n → Fin n → R) (ps : List (K × List (Option (Fin n)))) :
    ∀ (acc gamma : Fin n × Fin n → K), extractGammaLoop ps acc = .ok gamma →
      ∑ i, ∑ j, algebraMap K R (gammaAt gamma i j) * H i j
        = ∑ i, ∑ j, algebraMap K R (gammaAt acc i j) * H i j + (ps.map (bothOrders H)).sum := by
  induction ps with
  | nil =>
    intro acc gamma h
    simp only [extractGammaLoop, Except.ok.injEq] at h
    simp [h]
  | cons p ps ih =>
    intro acc gamma h
    obtain ⟨coef, fs⟩ := p
    rw [extractGammaLoop] at h
    by_cases hn : fs = []
    · subst hn
      simp only [if_true] at h
      rw [ih _ _ h]
      simp [bothOrders]
    · simp only [hn, if_false] at h
      match fs, h with
      | [some i, some j], h =>
        simp only [gammaEntry] at h
        rw [ih _ _ h, List.map_cons, List.sum_cons, ← add_assoc]
        congr 1
        set v : K := if i = j then coef * 2 else coef with hv
        have hupd : ∀ a b, gammaAt (Function.update acc (min i j, max i j) (acc (min i j, max i j) + v)) a b
            = gammaAt acc a b + if (a = i ∧ b = j) ∨ (a = j ∧ b = i) then v else 0 := by
          intro a b
          rw [gammaAt_eq, gammaAt_eq, Function.update_apply]
          by_cases hab : (a = i ∧ b = j) ∨ (a = j ∧ b = i)
          · rw [if_pos (minmax_eq.2 hab), if_pos hab, minmax_eq.2 hab]
          · rw [if_neg (fun hh => hab (minmax_eq.1 hh)), if_neg hab, add_zero]
        simp only [hupd, map_add, add_mul, Finset.sum_add_distrib]
        congr 1
        change _ = algebraMap K R coef * (H i j + H j i)
        by_cases hij : i = j
        · subst hij
          have e : ∀ a b, algebraMap K R (if (a = i ∧ b = i) ∨ (a = i ∧ b = i) then v else 0) * H a b
              = if a = i then (if b = i then algebraMap K R v * H a b else 0) else 0 := by
            intro a b
            by_cases h1 : a = i <;> by_cases h2 : b = i <;> simp [h1, h2]
          simp only [e]
          simp [hv, map_ofNat]
          ring
        · have e : ∀ a b, algebraMap K R (if (a = i ∧ b = j) ∨ (a = j ∧ b = i) then v else 0) * H a b
              = (if a = i then (if b = j then algebraMap K R v * H a b else 0) else 0)
                + if a = j then (if b = i then algebraMap K R v * H a b else 0) else 0 := by
            intro a b
            by_cases h1 : a = i
            · subst h1
              by_cases h2 : b = j <;> simp [h2, hij]
            · by_cases h2 : a = j
              · subst h2
                by_cases h3 : b = i <;> simp [h1, h3]
              · simp [h1, h2]
          simp only [e, Finset.sum_add_distrib]
          simp [hv, hij]
          ring

omit [CharZero K] in
theorem gamma_sum {F : ExpandedEnergy K n} {gamma : Fin n × Fin n → K} (h : extractGamma F = .ok gamma)
    (H : Fin n → Fin n → R) :
    ∑ i, ∑ j, algebraMap K R (gammaAt gamma i j) * H i j = (F.products.map (bothOrders H)).sum := by
  unfold extractGamma at h
  split_ifs at h
  rw [loop_sum H _ _ _ h]
  simp [gammaAt]

omit [CharZero K] in
theorem mu_gamma (d : Fin D → Derivation K R R) {F : ExpandedEnergy K n} {gamma : Fin n × Fin n → K}
    (h : extractGamma F = .ok gamma) (c : Fin n → R) (k : Fin n) :
    (F.products.map (muProduct d c k)).sum = -∑ j, algebraMap K R (gammaAt gamma k j) * laplacian d (c j) := by
  have hs := gamma_sum (R := R) h (fun i j => if k = i then laplacian d (c j) else 0)
  have e : ∑ i, ∑ j, algebraMap K R (gammaAt gamma i j) * (if k = i then laplacian d (c j) else 0)
      = ∑ j, algebraMap K R (gammaAt gamma k j) * laplacian d (c j) := by
    rw [Finset.sum_eq_single k]
    · simp
    · intro i _ hi
      simp [Ne.symm hi]
    · simp
  have hl : ∀ (L : List (K × List (Option (Fin n)))) (f g : K × List (Option (Fin n)) → R), (∀ p, f p = -g p) →
      (L.map f).sum = -(L.map g).sum := by
    intro L f g hfg
    induction L with
    | nil => simp
    | cons p L ih => rw [List.map_cons, List.map_cons, List.sum_cons, List.sum_cons, ih, hfg, neg_add]
  rw [← e, hs]
  refine hl _ _ _ fun p => ?_
  obtain ⟨coef, fs⟩ := p
  unfold muProduct bothOrders
  match fs with
  | [] => simp
  | [none] => simp
  | [some _] => simp
  | [none, _] => simp
  | [some _, none] => simp
  | [some i, some j] => simp
  | _ :: _ :: _ :: _ => simp

omit [CharZero K] in
theorem derivation_aeval (d : Derivation K R R) (c : Fin n → R) (p : MvPolynomial (Fin n) K) :
    d (MvPolynomial.aeval c p) = ∑ i, MvPolynomial.aeval c (MvPolynomial.pderiv i p) * d (c i) := by
  induction p using MvPolynomial.induction_on with
  | C a => simp
  | add p q hp hq => simp [hp, hq, add_mul, Finset.sum_add_distrib]
  | mul_X p i hp =>
    simp only [map_mul, MvPolynomial.aeval_X, Derivation.leibniz, hp, smul_eq_mul, MvPolynomial.pderiv_X, map_add,
      add_mul, Finset.sum_add_distrib]
    congr 1
    · rw [Finset.sum_eq_single i]
      · simp
      · intro j _ hj
        simp [Pi.single_apply, Ne.symm hj]
      · simp
    · rw [Finset.mul_sum]
      exact Finset.sum_congr rfl fun j _ => by ring

omit [CharZero K] in
theorem divergence_term (d : Fin D → Derivation K R R) (hd : ∀ a b f, d a (d b f) = d b (d a f)) (u v : R) (b : Fin D) :
    ∑ a, d a (interfaceTerm d u v a b) = -(u * d b (laplacian d v) + v * d b (laplacian d u)) := by
  have hite : ∀ X : R, ∑ a, d a (if a = b then X else 0) = d b X := by
    intro X
    rw [Finset.sum_eq_single b]
    · simp
    · intro a _ ha
      simp [ha]
    · simp
  unfold interfaceTerm laplacian
  simp only [map_sub, map_add, Finset.sum_sub_distrib, Finset.sum_add_distrib, Derivation.leibniz, smul_eq_mul, hite,
    map_sum]
  have h1 : ∀ (f g : R), ∑ a, d a f * d a (d b g) = ∑ a, d a f * d b (d a g) := fun f g =>
    Finset.sum_congr rfl fun a _ => by rw [hd]
  have h2 : ∀ (f g : R), ∑ a, d b f * d a (d a g) = d b f * ∑ a, d a (d a g) := fun f g => by rw [Finset.mul_sum]
  have h3 : ∀ (f g : R), ∑ a, f * d b (d a (d a g)) = f * ∑ a, d b (d a (d a g)) := fun f g => by rw [Finset.mul_sum]
  have h4 : ∀ (f g : R), ∑ a, d a (d a g) * d b f = d b f * ∑ a, d a (d a g) := fun f g => by
    rw [Finset.mul_sum]
    exact Finset.sum_congr rfl fun a _ => by ring
  simp only [h1, h2, h3, h4]
  ring

/-! ## C64 -/

/-- **C64.** The extracted coefficients are those of the energy: the products add up to half of the double sum over the
coefficients, whatever the symmetric product of two gradients is. -/
theorem C64_gamma {F : ExpandedEnergy K n} {gamma : Fin n × Fin n → K} (h : extractGamma F = .ok gamma)
    (G : Fin n → Fin n → R) (hG : ∀ i j, G i j = G j i) :
    gradientEnergy F.products G = ∑ i, ∑ j, algebraMap K R (gammaAt gamma i j / 2) * G i j := by
  have h2 : (algebraMap K R (1 / 2)) * 2 = 1 := by
    rw [← map_ofNat (algebraMap K R) 2, ← map_mul]
    simp
  have e1 : ∑ i, ∑ j, algebraMap K R (gammaAt gamma i j / 2) * G i j
      = algebraMap K R (1 / 2) * ∑ i, ∑ j, algebraMap K R (gammaAt gamma i j) * G i j := by
    simp only [Finset.mul_sum]
    refine Finset.sum_congr rfl fun i _ => Finset.sum_congr rfl fun j _ => ?_
    rw [← mul_assoc, ← map_mul]
    congr 2
    ring
  rw [e1, gamma_sum h]
  unfold gradientEnergy
  have hl : ∀ (L : List (K × List (Option (Fin n)))) (f g : K × List (Option (Fin n)) → R), (∀ p, g p = 2 * f p) →
      (L.map f).sum = algebraMap K R (1 / 2) * (L.map g).sum := by
    intro L f g hfg
    induction L with
    | nil => simp
    | cons p L ih =>
      rw [List.map_cons, List.map_cons, List.sum_cons, List.sum_cons, ih, hfg, mul_add, ← mul_assoc, h2, one_mul]
  refine hl _ _ _ fun p => ?_
  obtain ⟨coef, fs⟩ := p
  unfold bothOrders
  match fs with
  | [] => simp
  | [none] => simp
  | [some _] => simp
  | [none, _] => simp
  | [some _, none] => simp
  | [some i, some j] =>
    simp only
    rw [hG j i]
    ring
  | _ :: _ :: _ :: _ => simp

omit [CharZero K] in
/-- **C64.** The coefficients are found exactly if the energy is a sum whose products have no gradient or two gradients
of order parameters; otherwise one of two exceptions is raised. -/
theorem C64_gamma_refused (F : ExpandedEnergy K n) :
    ((∃ gamma, extractGamma F = .ok gamma) ↔
      F.isSum = true ∧ ∀ p ∈ F.products, p.2 = [] ∨ ∃ i j : Fin n, p.2 = [some i, some j])
    ∧ (F.isSum = false → extractGamma F = .error .assertion)
    ∧ (F.isSum = true → (∃ p ∈ F.products, p.2 ≠ [] ∧ ¬∃ i j : Fin n, p.2 = [some i, some j]) →
      extractGamma F = .error .valueError) := by
  have hbad : ∀ fs : List (Option (Fin n)), (¬∃ i j : Fin n, fs = [some i, some j]) → ∀ coef : K,
      gammaEntry (coef, fs) = .error .valueError := by
    intro fs hfs coef
    unfold gammaEntry
    match fs, hfs with
    | [], _ => rfl
    | [none], _ => rfl
    | [some _], _ => rfl
    | [none, _], _ => rfl
    | [some _, none], _ => rfl
    | [some i, some j], h => exact absurd ⟨i, j, rfl⟩ h
    | none :: _ :: _ :: _, _ => rfl
    | some _ :: none :: _ :: _, _ => rfl
    | some _ :: some _ :: _ :: _, _ => rfl
  have hgood : ∀ (ps : List (K × List (Option (Fin n)))) acc,
      (∀ p ∈ ps, p.2 = [] ∨ ∃ i j : Fin n, p.2 = [some i, some j]) → ∃ gamma, extractGammaLoop ps acc = .ok gamma := by
    intro ps
    induction ps with
    | nil => exact fun acc _ => ⟨acc, rfl⟩
    | cons p ps ih =>
      intro acc hp
      rw [extractGammaLoop]
      by_cases h0 : p.2 = []
      · rw [if_pos h0]
        exact ih acc fun q hq => hp q (List.mem_cons_of_mem _ hq)
      · rw [if_neg h0]
        obtain ⟨i, j, hij⟩ := (hp p List.mem_cons_self).resolve_left h0
        have : gammaEntry p = .ok ((min i j, max i j), if i = j then p.1 * 2 else p.1) := by
          unfold gammaEntry
          rw [hij]
        rw [this]
        exact ih _ fun q hq => hp q (List.mem_cons_of_mem _ hq)
  have hfail : ∀ (ps : List (K × List (Option (Fin n)))) acc,
      (∃ p ∈ ps, p.2 ≠ [] ∧ ¬∃ i j : Fin n, p.2 = [some i, some j]) →
      extractGammaLoop ps acc = .error .valueError := by
    intro ps
    induction ps with
    | nil =>
      rintro acc ⟨p, hp, _⟩
      simp at hp
    | cons p ps ih =>
      intro acc hex
      rw [extractGammaLoop]
      by_cases hp : p.2 ≠ [] ∧ ¬∃ i j : Fin n, p.2 = [some i, some j]
      · rw [if_neg hp.1, show gammaEntry p = .error .valueError from hbad p.2 hp.2 p.1]
      · have hrest : ∃ q ∈ ps, q.2 ≠ [] ∧ ¬∃ i j : Fin n, q.2 = [some i, some j] := by
          obtain ⟨q, hq, hb⟩ := hex
          rcases List.mem_cons.1 hq with rfl | hq
          · exact absurd hb hp
          · exact ⟨q, hq, hb⟩
        by_cases h0 : p.2 = []
        · rw [if_pos h0]
          exact ih acc hrest
        · rw [if_neg h0]
          have hij : ∃ i j : Fin n, p.2 = [some i, some j] := by
            by_contra hc
            exact hp ⟨h0, hc⟩
          obtain ⟨i, j, hij⟩ := hij
          have : gammaEntry p = .ok ((min i j, max i j), if i = j then p.1 * 2 else p.1) := by
            unfold gammaEntry
            rw [hij]
          rw [this]
          exact ih _ hrest
  have hA : F.isSum = false → extractGamma F = .error .assertion := by
    intro h
    unfold extractGamma
    rw [h]
    rfl
  have hB : F.isSum = true → (∃ p ∈ F.products, p.2 ≠ [] ∧ ¬∃ i j : Fin n, p.2 = [some i, some j]) →
      extractGamma F = .error .valueError := by
    intro h hex
    unfold extractGamma
    rw [if_pos h]
    exact hfail _ _ hex
  refine ⟨⟨?_, ?_⟩, hA, hB⟩
  · rintro ⟨gamma, hg⟩
    have hsum : F.isSum = true := by
      by_contra hc
      rw [hA (by simpa using hc)] at hg
      simp at hg
    refine ⟨hsum, fun p hp => ?_⟩
    by_contra hc
    rw [not_or] at hc
    rw [hB hsum ⟨p, hp, hc⟩] at hg
    simp at hg
  · rintro ⟨h, hall⟩
    unfold extractGamma
    rw [if_pos h]
    exact hgood _ _ hall

/-- **C64.** The force from the pressure tensor is the force from the chemical potentials, at every point and for all
fields: `-∇·P = -Σ c_i ∇μ_i`. -/
theorem C64_divergence (d : Fin D → Derivation K R R) (hd : ∀ a b f, d a (d b f) = d b (d a f))
    (F : ExpandedEnergy K n) (c : Fin n → R) {P : Fin D → Fin D → R}
    (hP : pressureTensor d F c none true true = .ok P) (b : Fin D) :
    forceFromPressure d P none b = forceFromPhiMu d c (chemicalPotential d F c) b := by
  unfold pressureTensor at hP
  match hg : extractGamma F with
  | .error e =>
    rw [hg] at hP
    simp [Except.map] at hP
  | .ok gamma =>
    rw [hg] at hP
    simp only [if_true, Except.map, Except.ok.injEq] at hP
    subst hP
    have h2 : ∀ x : K, algebraMap K R (x / 2) * 2 = algebraMap K R x := by
      intro x
      rw [← map_ofNat (algebraMap K R) 2, ← map_mul]
      congr 1
      field_simp
    unfold forceFromPressure forceFromPhiMu chemicalPotential
    simp only [mu_gamma d hg c, add_zero]
    have hbulk : ∑ a, d a (if a = b then pressureBulk F c none else 0) = ∑ i, c i * d b (muBulk F c i) := by
      rw [Finset.sum_eq_single b (fun a _ ha => by simp [ha]) (by simp), if_pos rfl]
      unfold pressureBulk
      simp only [Option.getD_none, map_sub, map_sum, Derivation.leibniz, smul_eq_mul, Finset.sum_add_distrib]
      rw [derivation_aeval]
      unfold muBulk
      ring
    have hinter : ∑ a, d a (pressureInterface d gamma c a b)
        = -∑ i, ∑ j, algebraMap K R (gammaAt gamma i j) * (c i * d b (laplacian d (c j))) := by
      unfold pressureInterface
      simp only [map_sum, Derivation.leibniz, Derivation.map_algebraMap, smul_eq_mul, mul_zero, zero_add]
      rw [Finset.sum_comm]
      have e1 : ∀ i, ∑ a, ∑ j, algebraMap K R (gammaAt gamma i j / 2) * d a (interfaceTerm d (c i) (c j) a b)
          = ∑ j, algebraMap K R (gammaAt gamma i j / 2)
            * -(c i * d b (laplacian d (c j)) + c j * d b (laplacian d (c i))) := by
        intro i
        rw [Finset.sum_comm]
        refine Finset.sum_congr rfl fun j _ => ?_
        rw [← Finset.mul_sum, divergence_term d hd]
      simp only [e1, mul_neg, Finset.sum_neg_distrib, mul_add, Finset.sum_add_distrib]
      congr 1
      have e2 : ∑ i, ∑ j, algebraMap K R (gammaAt gamma i j / 2) * (c j * d b (laplacian d (c i)))
          = ∑ i, ∑ j, algebraMap K R (gammaAt gamma i j / 2) * (c i * d b (laplacian d (c j))) := by
        rw [Finset.sum_comm]
        exact Finset.sum_congr rfl fun i _ => Finset.sum_congr rfl fun j _ => by rw [gammaAt_symm]
      rw [e2, ← two_mul, Finset.mul_sum]
      refine Finset.sum_congr rfl fun i _ => ?_
      rw [Finset.mul_sum]
      exact Finset.sum_congr rfl fun j _ => by
        rw [← h2 (gammaAt gamma i j)]
        ring
    simp only [map_add, Finset.sum_add_distrib]
    rw [hbulk, hinter]
    simp only [map_neg, map_sum, Derivation.leibniz, Derivation.map_algebraMap, smul_eq_mul, mul_zero, add_zero,
      mul_add, Finset.sum_add_distrib, neg_mul, mul_neg, neg_neg, Finset.sum_neg_distrib, neg_add, Finset.mul_sum]
    rw [add_comm]
    congr 1
    exact Finset.sum_congr rfl fun i _ => Finset.sum_congr rfl fun j _ => by ring

omit [CharZero K] in
/-- **C64.** Both ways of writing the interface part are the same tensor. -/
theorem C64_interface_new (d : Fin D → Derivation K R R) (gamma : Fin n × Fin n → K) (c : Fin n → R) (a b : Fin D) :
    pressureInterface d gamma c a b = pressureInterfaceNew d gamma c a b := by
  have hsw : ∀ f : Fin n → Fin n → R, ∑ i, ∑ j, f j i * algebraMap K R (gammaAt gamma i j / 2)
      = ∑ i, ∑ j, f i j * algebraMap K R (gammaAt gamma i j / 2) := by
    intro f
    rw [Finset.sum_comm]
    exact Finset.sum_congr rfl fun i _ => Finset.sum_congr rfl fun j _ => by rw [gammaAt_symm]
  unfold pressureInterface pressureInterfaceNew
  have h := hsw fun i j => d a (c i) * d b (c j) - if a = b then ∑ g, c i * d g (d g (c j)) else 0
  rw [← sub_eq_zero] at h ⊢
  rw [← h, ← Finset.sum_sub_distrib, ← Finset.sum_sub_distrib]
  refine Finset.sum_congr rfl fun i _ => ?_
  rw [← Finset.sum_sub_distrib, ← Finset.sum_sub_distrib]
  refine Finset.sum_congr rfl fun j _ => ?_
  unfold interfaceTerm interfaceTermNew
  split_ifs <;> ring

omit [CharZero K] in
/-- **C64.** The pressure tensor is symmetric. -/
theorem C64_symmetric (d : Fin D → Derivation K R R) (F : ExpandedEnergy K n) (c : Fin n → R) (mu : Option (Fin n → R))
    (bulk interface : Bool) {P : Fin D → Fin D → R} (hP : pressureTensor d F c mu bulk interface = .ok P)
    (a b : Fin D) : P a b = P b a := by
  have hI : ∀ gamma, pressureInterface d gamma c a b = pressureInterface d gamma c b a := by
    intro gamma
    unfold pressureInterface
    refine Finset.sum_congr rfl fun i _ => Finset.sum_congr rfl fun j _ => ?_
    congr 1
    unfold interfaceTerm
    by_cases h : a = b
    · subst h
      rfl
    · rw [if_neg h, if_neg (Ne.symm h)]
      ring
  unfold pressureTensor at hP
  split at hP
  · simp at hP
  · rename_i gamma _
    simp only [Except.ok.injEq] at hP
    subst hP
    by_cases h : a = b
    · subst h
      rfl
    · beta_reduce
      rw [if_neg h, if_neg (Ne.symm h)]
      match gamma with
      | none => rfl
      | some g => simp only [hI]

omit [CharZero K] in
/-- **C64.** The square root form of the bulk pressure: if the square of `pbs` is the ideal pressure minus the bulk
pressure, the force is that of the whole pressure tensor plus the gradient of the ideal pressure. -/
theorem C64_pressure_sqrt (d : Fin D → Derivation K R R) (F : ExpandedEnergy K n) (c : Fin n → R) {P Pi : Fin D → Fin D → R}
    (hP : pressureTensor d F c none true true = .ok P) (hPi : pressureTensor d F c none false true = .ok Pi)
    (ideal pbs : R) (hpbs : pbs * pbs = ideal - pressureBulk F c none) (b : Fin D) :
    forceFromPressure d Pi (some pbs) b = forceFromPressure d P none b + d b ideal := by
  unfold pressureTensor at hP hPi
  match hg : extractGamma F with
  | .error e =>
    rw [hg] at hP
    simp [Except.map] at hP
  | .ok gamma =>
    rw [hg] at hP hPi
    simp only [if_true, Except.map, Except.ok.injEq] at hP hPi
    subst hP hPi
    have h := congrArg (d b) hpbs
    rw [Derivation.leibniz, map_sub, smul_eq_mul] at h
    unfold forceFromPressure
    simp only [Bool.false_eq_true, if_false, add_zero, map_add, Finset.sum_add_distrib]
    rw [Finset.sum_eq_single (f := fun a => d a (if a = b then pressureBulk F c none else 0)) b
      (fun a _ ha => by simp [ha]) (by simp), if_pos rfl]
    linear_combination h

omit [CharZero K] in
/-- **C64, wrong.** Where the bulk pressure is above the ideal pressure the square root is taken of the absolute value;
the bulk then acts with the opposite sign. -/
theorem C64_pressure_sqrt_wrong (d : Fin D → Derivation K R R) (F : ExpandedEnergy K n) (c : Fin n → R)
    {P Pi : Fin D → Fin D → R}
    (hP : pressureTensor d F c none true true = .ok P) (hPi : pressureTensor d F c none false true = .ok Pi)
    (ideal pbs : R) (hpbs : pbs * pbs = pressureBulk F c none - ideal) (b : Fin D) :
    forceFromPressure d Pi (some pbs) b
      = forceFromPressure d P none b + d b ideal + 2 * d b (pressureBulk F c none - ideal) := by
  unfold pressureTensor at hP hPi
  match hg : extractGamma F with
  | .error e =>
    rw [hg] at hP
    simp [Except.map] at hP
  | .ok gamma =>
    rw [hg] at hP hPi
    simp only [if_true, Except.map, Except.ok.injEq] at hP hPi
    subst hP hPi
    have h := congrArg (d b) hpbs
    rw [Derivation.leibniz, map_sub, smul_eq_mul] at h
    unfold forceFromPressure
    simp only [Bool.false_eq_true, if_false, add_zero, map_add, map_sub, Finset.sum_add_distrib]
    rw [Finset.sum_eq_single (f := fun a => d a (if a = b then pressureBulk F c none else 0)) b
      (fun a _ ha => by simp [ha]) (by simp), if_pos rfl]
    linear_combination h

end

/-- An energy of two order parameters with a mixed gradient term. -/
noncomputable def exampleEnergy : ExpandedEnergy ℚ 2 where
  bulk := MvPolynomial.X 0 ^ 2 * MvPolynomial.X 1
  products := [(1 / 2, [some 0, some 0]), (3, []), (-2, [some 1, some 0]), (5, [some 1, some 1])]
  isSum := true

/-- Derivatives of polynomials in two coordinates. -/
noncomputable def exampleDerivative (a : Fin 2) : Derivation ℚ (MvPolynomial (Fin 2) ℚ) (MvPolynomial (Fin 2) ℚ) :=
  MvPolynomial.pderiv a

/-- The derivatives along the axes commute. -/
theorem exampleDerivative_comm (a b : Fin 2) (f : MvPolynomial (Fin 2) ℚ) :
    exampleDerivative a (exampleDerivative b f) = exampleDerivative b (exampleDerivative a f) := by
  have h : ⁅exampleDerivative a, exampleDerivative b⁆ = 0 := by
    refine MvPolynomial.derivation_ext fun i => ?_
    rw [Derivation.commutator_apply]
    unfold exampleDerivative
    fin_cases a <;> fin_cases b <;> fin_cases i <;> simp [MvPolynomial.pderiv_X, Pi.single_apply]
  have h2 := congrArg (fun D => D f) h
  simp only [Derivation.commutator_apply, Derivation.zero_apply] at h2
  exact sub_eq_zero.1 h2

example : ∃ gamma, extractGamma exampleEnergy = .ok gamma ∧ gammaAt gamma 0 0 = 1 ∧ gammaAt gamma 0 1 = -2
    ∧ gammaAt gamma 1 0 = -2 ∧ gammaAt gamma 1 1 = 10 := by
  refine ⟨_, rfl, ?_, ?_, ?_, ?_⟩ <;> simp [gammaAt, Function.update_apply] <;> norm_num

example : ∃ P, pressureTensor exampleDerivative exampleEnergy (fun i => MvPolynomial.X i ^ 3) none true true = .ok P
    ∧ ∀ b, forceFromPressure exampleDerivative P none b
      = forceFromPhiMu exampleDerivative (fun i => MvPolynomial.X i ^ 3)
        (chemicalPotential exampleDerivative exampleEnergy fun i => MvPolynomial.X i ^ 3) b :=
  ⟨_, rfl, fun b => C64_divergence _ exampleDerivative_comm _ _ rfl b⟩

/-! ### Linear index of a symmetric tensor -/

theorem loop_spec (ps : List (ℕ × ℕ)) : ∀ (acc : List ((ℕ × ℕ) × ℕ)) (next : ℕ), (acc.map Prod.fst).Nodup →
    acc.map Prod.snd = List.range next →
    ((linearizationLoop ps acc next).map Prod.fst).Nodup
      ∧ (∃ m, (linearizationLoop ps acc next).map Prod.snd = List.range m)
      ∧ ∀ k, k ∈ (linearizationLoop ps acc next).map Prod.fst
          ↔ k ∈ acc.map Prod.fst ∨ ∃ p ∈ ps, k = (min p.1 p.2, max p.1 p.2) := by
  induction ps with
  | nil => exact fun acc next h1 h2 => ⟨h1, ⟨next, h2⟩, fun k => by simp [linearizationLoop]⟩
  | cons p ps ih =>
    intro acc next h1 h2
    rw [linearizationLoop]
    by_cases hm : (min p.1 p.2, max p.1 p.2) ∈ acc.map Prod.fst
    · simp only [hm, if_true]
      obtain ⟨a, b, e⟩ := ih acc next h1 h2
      refine ⟨a, b, fun k => ?_⟩
      rw [e]
      constructor
      · rintro (h | ⟨q, hq, rfl⟩)
        · exact .inl h
        · exact .inr ⟨q, List.mem_cons_of_mem _ hq, rfl⟩
      · rintro (h | ⟨q, hq, rfl⟩)
        · exact .inl h
        · rcases List.mem_cons.1 hq with rfl | hq
          · exact .inl hm
          · exact .inr ⟨q, hq, rfl⟩
    · simp only [hm, if_false]
      obtain ⟨a, b, e⟩ := ih (acc ++ [((min p.1 p.2, max p.1 p.2), next)]) (next + 1)
        (by
          rw [List.map_append, List.nodup_append]
          refine ⟨h1, by simp, ?_⟩
          intro x hx y hy
          simp only [List.map_cons, List.map_nil, List.mem_singleton] at hy
          rintro rfl
          exact hm (hy ▸ hx))
        (by rw [List.map_append, h2, List.range_succ]; rfl)
      refine ⟨a, b, fun k => ?_⟩
      rw [e, List.map_append, List.mem_append]
      simp only [List.map_cons, List.map_nil, List.mem_cons, List.not_mem_nil, or_false]
      constructor
      · rintro ((h | h) | ⟨q, hq, rfl⟩)
        · exact .inl h
        · exact .inr ⟨p, .inl rfl, h⟩
        · exact .inr ⟨q, .inr hq, rfl⟩
      · rintro (h | ⟨q, rfl | hq, rfl⟩)
        · exact .inl (.inl h)
        · exact .inl (.inr rfl)
        · exact .inr ⟨q, hq, rfl⟩

/-- **C64.** The linear index numbers the entries on and above the diagonal, each once, by `0, …, dim (dim+1)/2 - 1`. -/
theorem C64_linearization (dim : ℕ) :
    ((symmetricLinearization dim).map Prod.fst).Nodup
      ∧ (∀ i j, (i, j) ∈ (symmetricLinearization dim).map Prod.fst ↔ i ≤ j ∧ j < dim)
      ∧ (symmetricLinearization dim).map Prod.snd = List.range (dim * (dim + 1) / 2) := by
  obtain ⟨hnd, ⟨m, hm⟩, hmem⟩ := loop_spec (indexPairs dim) [] 0 (by simp) (by simp)
  change ((symmetricLinearization dim).map Prod.fst).Nodup at hnd
  change (symmetricLinearization dim).map Prod.snd = List.range m at hm
  have hk : ∀ i j, (i, j) ∈ (symmetricLinearization dim).map Prod.fst ↔ i ≤ j ∧ j < dim := by
    intro i j
    unfold symmetricLinearization
    rw [hmem]
    simp only [List.map_nil, List.not_mem_nil, false_or, indexPairs, List.mem_flatMap, List.mem_range, List.mem_map]
    constructor
    · rintro ⟨p, ⟨a, ha, b, hb, rfl⟩, h⟩
      simp only [Prod.mk.injEq] at h
      omega
    · rintro ⟨h1, h2⟩
      exact ⟨(i, j), ⟨i, by omega, j, h2, rfl⟩, by simp [h1]⟩
  refine ⟨hnd, hk, ?_⟩
  rw [hm]
  congr 1
  have hlen : (symmetricLinearization dim).length = m := by
    rw [← List.length_map (f := Prod.snd), hm, List.length_range]
  have hcard : ((symmetricLinearization dim).map Prod.fst).toFinset.card = m := by
    rw [List.toFinset_card_of_nodup hnd, List.length_map, hlen]
  have hset : ((symmetricLinearization dim).map Prod.fst).toFinset
      = (Finset.range dim).biUnion fun j => (Finset.range (j + 1)).image fun i => (i, j) := by
    ext ⟨i, j⟩
    rw [List.mem_toFinset, hk]
    simp only [Finset.mem_biUnion, Finset.mem_range, Finset.mem_image, Prod.mk.injEq]
    constructor
    · rintro ⟨h1, h2⟩
      exact ⟨j, h2, i, by omega, rfl, rfl⟩
    · rintro ⟨b, hb, a, ha, rfl, rfl⟩
      exact ⟨by omega, hb⟩
  rw [← hcard, hset, Finset.card_biUnion]
  · have : ∀ j ∈ Finset.range dim, ((Finset.range (j + 1)).image fun i => (i, j)).card = j + 1 := by
      intro j _
      rw [Finset.card_image_of_injective _ (fun a b h => (Prod.mk.inj h).1), Finset.card_range]
    rw [Finset.sum_congr rfl this]
    have hs : ∀ d : ℕ, (∑ j ∈ Finset.range d, (j + 1)) * 2 = d * (d + 1) := by
      intro d
      induction d with
      | zero => rfl
      | succ d ih =>
        rw [Finset.sum_range_succ, add_mul, ih]
        ring
    rw [← hs dim, Nat.mul_div_cancel _ (by norm_num)]
  · intro x _ y _ hxy
    rw [Function.onFun, Finset.disjoint_left]
    rintro ⟨a, b⟩ h1 h2
    simp only [Finset.mem_image, Prod.mk.injEq] at h1 h2
    obtain ⟨_, _, _, rfl⟩ := h1
    obtain ⟨_, _, _, rfl⟩ := h2
    exact hxy rfl

example : symmetricLinearization 3
    = [((0, 0), 0), ((0, 1), 1), ((0, 2), 2), ((1, 1), 3), ((1, 2), 4), ((2, 2), 5)] := by decide

end PhaseField
end Lbm
