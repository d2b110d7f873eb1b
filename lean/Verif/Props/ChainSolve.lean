/-
C115: solving a hierarchy of equations one by one gives the solutions of the system.
-/
import Verif.Spec.ChainSolve
import Mathlib.Tactic.Module
import Mathlib.Tactic.NormNum
import Mathlib.Tactic.Linarith
import Mathlib.Tactic.Ring
import Mathlib.Algebra.Order.Ring.Rat
import Mathlib.Algebra.Field.Rat
import Mathlib.Data.Finsupp.Single

namespace Lbm
namespace ChainSolve

open Spec

variable {F U W N : Type} [Field F] [AddCommGroup W] [Module F W] [AddCommGroup N] [Module F N] [DecidableEq U]

omit [AddCommGroup W] in
theorem mem_of_lookup {d : List (U × W)} {u : U} {w : W} (h : d.lookup u = some w) : (u, w) ∈ d := by
  induction d with
  | nil => simp at h
  | cons p d ih =>
    obtain ⟨v, w'⟩ := p
    rw [List.lookup_cons] at h
    by_cases hv : u = v
    · subst hv
      simp only [beq_self_eq_true] at h
      simp [Option.some.inj h]
    · rw [beq_false_of_ne hv] at h
      exact List.mem_cons_of_mem _ (ih h)

omit [AddCommGroup W] in
theorem lookup_none {d : List (U × W)} {u : U} : d.lookup u = none ↔ u ∉ d.map Prod.fst := by
  induction d with
  | nil => simp
  | cons p d ih =>
    obtain ⟨v, w'⟩ := p
    rw [List.lookup_cons]
    by_cases hv : u = v
    · subst hv; simp
    · rw [beq_false_of_ne hv]
      simp only [List.map_cons, List.mem_cons, hv, false_or]
      exact ih

/-- Substituting solutions does not change the value. -/
theorem lhs_subs (φ : W →ₗ[F] N) (y : U → N) (d : List (U × W)) (h : Agrees φ y d) (e : Eqn F U W) :
    lhs φ y (subs d e) = lhs φ y e := by
  classical
  unfold lhs subs
  simp only [map_add]
  rw [← add_assoc, add_right_comm]
  congr 1
  conv_rhs => rw [← Finsupp.filter_add_filter_not e.coeff fun u => d.lookup u = none, map_add]
  congr 1
  rw [Finsupp.linearCombination_apply, Finsupp.sum, Finsupp.sum, map_sum, Finsupp.support_filter, Finset.sum_filter]
  refine Finset.sum_congr rfl fun u hu => ?_
  cases hl : d.lookup u with
  | none => simp
  | some w =>
    have hy : y u = φ w := h (u, w) (mem_of_lookup hl)
    rw [if_pos (by simp), Finsupp.filter_apply, if_pos (by simp [hl]), hy, map_smul]

theorem coeff_subs (d : List (U × W)) (e : Eqn F U W) (u : U) :
    (subs d e).coeff u = if u ∈ d.map Prod.fst then 0 else e.coeff u := by
  classical
  unfold subs
  simp only [Finsupp.filter_apply, lookup_none]
  split_ifs <;> simp_all

theorem toList_singleton {c : U →₀ F} {u : U} (h : c.support.toList = [u]) : c = Finsupp.single u (c u) ∧ c u ≠ 0 := by
  have hs : c.support = {u} := by
    ext v
    rw [← Finset.mem_toList, h]; simp
  refine ⟨?_, ?_⟩
  · ext v
    by_cases hv : v = u
    · subst hv; simp
    · rw [Finsupp.single_eq_of_ne hv]
      by_contra hne
      have : v ∈ c.support := Finsupp.mem_support_iff.2 hne
      rw [hs] at this
      exact hv (by simpa using this)
  · rw [← Finsupp.mem_support_iff, hs]; simp

theorem solve_single (φ : W →ₗ[F] N) (y : U → N) (e : Eqn F U W) {u : U} (h : e.coeff.support.toList = [u]) :
    lhs φ y e = 0 ↔ y u = φ (-((e.coeff u)⁻¹ • e.rest)) := by
  obtain ⟨h1, h2⟩ := toList_singleton h
  unfold lhs
  rw [h1, Finsupp.linearCombination_single, Finsupp.single_eq_same, map_neg, map_smul]
  constructor
  · intro he
    rw [eq_neg_of_add_eq_zero_right he, smul_neg, neg_neg, smul_smul, inv_mul_cancel₀ h2, one_smul]
  · intro he
    rw [he, smul_neg, smul_smul, mul_inv_cancel₀ h2, one_smul, neg_add_cancel]

theorem chain_spec (φ : W →ₗ[F] N) (y : U → N) (es : List (Eqn F U W)) (d : List (U × W)) (res : List (Eqn F U W)) (d' : List (U × W))
    (h : chain es d = .ok (res, d')) : (Agrees φ y d' → Agrees φ y d) ∧
      (Agrees φ y d → (Satisfies φ y es ↔ Agrees φ y d' ∧ ∀ e ∈ res, e.coeff = 0 → φ e.rest = 0)) := by
  induction es generalizing d res with
  | nil =>
    simp only [chain, Except.ok.injEq, Prod.mk.injEq] at h
    obtain ⟨rfl, rfl⟩ := h
    exact ⟨id, fun hd => ⟨fun _ => ⟨hd, by simp⟩, fun _ => by simp [Satisfies]⟩⟩
  | cons e es ih =>
    rw [chain] at h
    have hcons : Satisfies φ y (e :: es) ↔ lhs φ y e = 0 ∧ Satisfies φ y es := by simp [Satisfies]
    split at h
    · rename_i hsupp
      have h0 : (subs d e).coeff = 0 := by
        rw [← Finsupp.support_eq_empty, ← Finset.toList_eq_nil]; exact hsupp
      cases hc : chain es d with
      | error err => rw [hc] at h; cases h
      | ok r =>
        rw [hc] at h
        obtain ⟨r1, r2⟩ := r
        simp only [Except.map, Except.ok.injEq, Prod.mk.injEq] at h
        obtain ⟨rfl, rfl⟩ := h
        obtain ⟨i1, i2⟩ := ih d r1 hc
        refine ⟨i1, fun hd => ?_⟩
        rw [hcons, i2 hd, ← lhs_subs φ y d hd e]
        have hl : lhs φ y (subs d e) = φ (subs d e).rest := by unfold lhs; rw [h0, map_zero, zero_add]
        rw [hl]
        constructor
        · rintro ⟨a, b, c⟩
          refine ⟨b, fun e' he' hz => ?_⟩
          rcases List.mem_cons.1 he' with rfl | he'
          · exact a
          · exact c e' he' hz
        · rintro ⟨b, c⟩
          exact ⟨c _ List.mem_cons_self h0, b, fun e' he' => c e' (List.mem_cons_of_mem _ he')⟩
    · rename_i u hsupp
      have hne : (subs d e).coeff ≠ 0 := by
        intro h0
        rw [h0] at hsupp
        simp at hsupp
      cases hc : chain es (d ++ [(u, -(((subs d e).coeff u)⁻¹ • (subs d e).rest))]) with
      | error err => rw [hc] at h; cases h
      | ok r =>
        rw [hc] at h
        obtain ⟨r1, r2⟩ := r
        simp only [Except.map, Except.ok.injEq, Prod.mk.injEq] at h
        obtain ⟨rfl, rfl⟩ := h
        obtain ⟨i1, i2⟩ := ih _ r1 hc
        have happ : Agrees φ y (d ++ [(u, -(((subs d e).coeff u)⁻¹ • (subs d e).rest))]) ↔
            Agrees φ y d ∧ y u = φ (-(((subs d e).coeff u)⁻¹ • (subs d e).rest)) := by
          unfold Agrees
          constructor
          · exact fun ha => ⟨fun p hp => ha p (List.mem_append_left _ hp), ha _ (List.mem_append_right _ List.mem_cons_self)⟩
          · rintro ⟨ha, hb⟩ p hp
            rcases List.mem_append.1 hp with hp | hp
            · exact ha p hp
            · rw [List.mem_singleton] at hp; subst hp; exact hb
        refine ⟨fun ha => (happ.1 (i1 ha)).1, fun hd => ?_⟩
        have hsol := solve_single φ y (subs d e) hsupp
        rw [hcons, ← lhs_subs φ y d hd e, hsol]
        constructor
        · rintro ⟨a, b⟩
          obtain ⟨c1, c2⟩ := (i2 (happ.2 ⟨hd, a⟩)).1 b
          refine ⟨c1, fun e' he' hz => ?_⟩
          rcases List.mem_cons.1 he' with rfl | he'
          · exact absurd hz hne
          · exact c2 e' he' hz
        · rintro ⟨a, b⟩
          exact ⟨(happ.1 (i1 a)).2, (i2 (i1 a)).2 ⟨a, fun e' he' => b e' (List.mem_cons_of_mem _ he')⟩⟩
    · cases h

/-- C115. Values satisfy the equations exactly when the unknowns have the values of the dict and the equations that are left
without unknowns hold. -/
theorem C115_chain (φ : W →ₗ[F] N) (y : U → N) (es res : List (Eqn F U W)) (d : List (U × W)) (h : chain es [] = .ok (res, d)) :
    Satisfies φ y es ↔ Agrees φ y d ∧ ∀ e ∈ res, e.coeff = 0 → φ e.rest = 0 :=
  (chain_spec φ y es [] res d h).2 (by simp [Agrees])

theorem triangular_aux (l : List (Eqn F U W × U)) (d : List (U × W)) (h : Triangular (d.map Prod.fst) l) :
    ∃ res d', chain (l.map Prod.fst) d = .ok (res, d') ∧ d'.map Prod.fst = d.map Prod.fst ++ l.map Prod.snd := by
  induction l generalizing d with
  | nil => exact ⟨[], d, rfl, by simp⟩
  | cons p l ih =>
    obtain ⟨e, u⟩ := p
    obtain ⟨h1, h2, h3, h4⟩ := h
    have hs : (subs d e).coeff.support.toList = [u] := by
      rw [Finset.toList_eq_singleton_iff]
      ext v
      rw [Finsupp.mem_support_iff, coeff_subs, Finset.mem_singleton]
      split_ifs with hv
      · simp only [ne_eq, not_true_eq_false, false_iff]
        rintro rfl
        exact h1 hv
      · constructor
        · intro hne
          rcases h3 v hne with h | h
          · exact h
          · exact absurd h hv
        · rintro rfl; exact h2
    obtain ⟨res, d', hc, hd'⟩ := ih (d ++ [(u, -(((subs d e).coeff u)⁻¹ • (subs d e).rest))]) (by simpa using h4)
    refine ⟨subs d e :: res, d', ?_, ?_⟩
    · simp only [List.map_cons]
      rw [chain]
      simp only [hs]
      rw [hc]; rfl
    · rw [hd']; simp

/-- C115. If each equation has one unknown more than those before, all are solved for, in this order. -/
theorem C115_triangular (l : List (Eqn F U W × U)) (h : Triangular [] l) :
    ∃ res d, chain (l.map Prod.fst) [] = .ok (res, d) ∧ d.map Prod.fst = l.map Prod.snd := by
  obtain ⟨res, d, h1, h2⟩ := triangular_aux l ([] : List (U × W)) h
  exact ⟨res, d, h1, by simpa using h2⟩

/-- C115. So a triangular system has exactly one solution, the values of the dict. -/
theorem C115_unique (φ : W →ₗ[F] N) (l : List (Eqn F U W × U)) (h : Triangular [] l) (y y' : U → N)
    (hy : Satisfies φ y (l.map Prod.fst)) (hy' : Satisfies φ y' (l.map Prod.fst)) (u : U) (hu : u ∈ l.map Prod.snd) : y u = y' u := by
  obtain ⟨res, d, h1, h2⟩ := C115_triangular l h
  have a := ((C115_chain φ y _ _ _ h1).1 hy).1
  have a' := ((C115_chain φ y' _ _ _ h1).1 hy').1
  rw [← h2, List.mem_map] at hu
  obtain ⟨p, hp, rfl⟩ := hu
  rw [a p hp, a' p hp]

/-- C115. Two unknowns that have not been solved for are an assertion error, whatever follows. -/
theorem C115_two_unknowns (e : Eqn F U W) (es : List (Eqn F U W)) (u v : U) (huv : u ≠ v) (hu : e.coeff u ≠ 0) (hv : e.coeff v ≠ 0) :
    chain (e :: es) [] = .error .assertion := by
  have h0 : (subs ([] : List (U × W)) e).coeff = e.coeff := by ext w; rw [coeff_subs]; simp
  rw [chain]
  simp only [h0]
  split
  · rename_i h
    rw [Finset.toList_eq_nil, Finsupp.support_eq_empty] at h
    rw [h] at hu; exact absurd rfl hu
  · rename_i w h
    have hmem : ∀ x, e.coeff x ≠ 0 → x = w := by
      intro x hx
      have : x ∈ e.coeff.support.toList := by rw [Finset.mem_toList, Finsupp.mem_support_iff]; exact hx
      rw [h] at this
      simpa using this
    exact absurd ((hmem u hu).trans (hmem v hv).symm) huv
  · rfl

/-- `u_0 - 1 = 0` and `u_0 + 2 u_1 = 0`, an example of a triangular system -/
noncomputable def two : List (Eqn ℚ (Fin 2) ℚ × Fin 2) :=
  [(⟨Finsupp.single 0 1, -1⟩, 0), (⟨Finsupp.single 0 1 + Finsupp.single 1 2, 0⟩, 1)]

theorem two_triangular : Triangular [] two := by
  refine ⟨by simp, by simp, fun v hv => ?_, by simp, by simp, fun v hv => ?_, trivial⟩
  · left
    by_contra h
    exact hv (by simp [Ne.symm h])
  · by_contra h
    simp only [List.nil_append, List.mem_singleton, not_or] at h
    exact hv (by simp [Ne.symm h.1, Ne.symm h.2])

/-- C115. The order matters: the same two equations are solved, and rejected when the second comes first. -/
theorem C115_order : (∃ r, chain (two.map Prod.fst) [] = .ok r) ∧ chain ((two.map Prod.fst).reverse) [] = .error .assertion := by
  constructor
  · obtain ⟨res, d, h, -⟩ := C115_triangular two two_triangular
    exact ⟨_, h⟩
  · exact C115_two_unknowns _ _ 0 1 (by decide) (by simp) (by simp)

example (y : Fin 2 → ℚ) (h : Satisfies LinearMap.id y (two.map Prod.fst)) : y 1 = -1 / 2 := by
  refine (C115_unique LinearMap.id two two_triangular y (fun i => if i = 0 then 1 else -1 / 2) h ?_ 1 (by simp [two])).trans (by simp)
  intro e he
  simp only [two, List.map_cons, List.map_nil, List.mem_cons, List.not_mem_nil, or_false] at he
  rcases he with rfl | rfl
  · simp [lhs]
  · simp [lhs, map_add]
    norm_num

/-! ### Moments -/

variable {M : Type}

omit [DecidableEq U] in
theorem eval_congr {res : List (Eqn F U (Affine F M))} {m m' : M → F} (h : ∀ k ∈ momentsToSolve res, m k = m' k)
    {e : Eqn F U (Affine F M)} (he : e ∈ momentEquations res) : evalMoments m e.rest = evalMoments m' e.rest := by
  have hl : Finsupp.linearCombination F m e.rest.1 = Finsupp.linearCombination F m' e.rest.1 := by
    rw [Finsupp.linearCombination_apply, Finsupp.linearCombination_apply]
    refine Finsupp.sum_congr fun k hk => ?_
    rw [h k ⟨e, he, Finsupp.mem_support_iff.1 hk⟩]
  unfold evalMoments
  simp only [LinearMap.add_apply, LinearMap.comp_apply, LinearMap.fst_apply, LinearMap.snd_apply, hl]

omit [DecidableEq U] in
theorem mem_momentEquations {res : List (Eqn F U (Affine F M))} {e : Eqn F U (Affine F M)} :
    e ∈ momentEquations res ↔ e ∈ res ∧ e.rest.1 ≠ 0 := by
  unfold momentEquations
  simp [List.mem_filter]

/-- C115. Moments and time derivatives that satisfy the moment equations: the moments have the values of the dict. -/
theorem C115_moments (eqs : List (Eqn F U (Affine F M))) (s : M → F) (h : momentSubsDict eqs = .ok (some s)) (m : M → F) (y : U → F)
    (hs : Satisfies (evalMoments m) y eqs) (res : List (Eqn F U (Affine F M))) (d : List (U × Affine F M))
    (hc : chain eqs [] = .ok (res, d)) : ∀ k ∈ momentsToSolve res, m k = s k := by
  classical
  unfold momentSubsDict at h
  rw [hc] at h
  simp only [Except.map, Except.ok.injEq] at h
  split_ifs at h with hu
  have hsol : hu.2.choose = s := Option.some.inj h
  have hall := ((C115_chain (evalMoments m) y eqs res d hc).1 hs).2
  let m' : M → F := fun k => if k ∈ momentsToSolve res then m k else 0
  have hm' : IsSolution res m' := by
    refine ⟨fun e he => ?_, fun k hk => if_neg hk⟩
    rw [eval_congr (m' := m) (fun k hk => if_pos hk) he]
    exact hall e (mem_momentEquations.1 he).1 (hu.1 e he)
  have heq : m' = s := by rw [← hsol]; exact hu.2.choose_spec.2 m' hm'
  intro k hk
  rw [← heq]
  exact (if_pos hk).symm

/-- C115. Conversely the moments of the dict, with the time derivatives of the other dict, satisfy the moment equations, if those that
contain neither hold. -/
theorem C115_moments_solve (eqs : List (Eqn F U (Affine F M))) (s : M → F) (h : momentSubsDict eqs = .ok (some s))
    (res : List (Eqn F U (Affine F M))) (d : List (U × Affine F M)) (hc : chain eqs [] = .ok (res, d)) (y : U → F)
    (hy : Agrees (evalMoments s) y d) (hrest : ∀ e ∈ res, e.coeff = 0 → e.rest.1 = 0 → e.rest.2 = 0) :
    Satisfies (evalMoments s) y eqs := by
  classical
  unfold momentSubsDict at h
  rw [hc] at h
  simp only [Except.map, Except.ok.injEq] at h
  split_ifs at h with hu
  have hsol : hu.2.choose = s := Option.some.inj h
  have hS : IsSolution res s := by rw [← hsol]; exact hu.2.choose_spec.1
  refine (C115_chain (evalMoments s) y eqs res d hc).2 ⟨hy, fun e he h0 => ?_⟩
  by_cases hm : e.rest.1 = 0
  · unfold evalMoments
    simp [hm, hrest e he h0 hm]
  · exact hS.1 e (mem_momentEquations.2 ⟨he, hm⟩)

/-- `T + 1 = 0` and `T + 2 P - 3 = 0` for a time derivative `T` and a moment `P` -/
noncomputable def withMoment : List (Eqn ℚ Unit (Affine ℚ Unit)) :=
  [⟨Finsupp.single () 1, (0, 1)⟩, ⟨Finsupp.single () 1, (Finsupp.single () 2, -3)⟩]

theorem chain_withMoment : ∃ e, chain withMoment [] = .ok ([⟨Finsupp.single () 1, (0, 1)⟩, e], [((), -(0, 1))]) ∧ e.coeff = 0 ∧
    e.rest = (Finsupp.single () 2, -4) := by
  have hs : (subs ([] : List (Unit × Affine ℚ Unit)) ⟨Finsupp.single () 1, (0, 1)⟩ : Eqn ℚ Unit (Affine ℚ Unit)) =
      ⟨Finsupp.single () 1, (0, 1)⟩ := by
    unfold subs
    congr 1
    · ext; simp
    · simp
  have h1 : (Finsupp.single () (1 : ℚ)).support.toList = [()] := by
    rw [Finsupp.support_single _ one_ne_zero, Finset.toList_singleton]
  have hc2 : (subs [((), (-(0, 1) : Affine ℚ Unit))] ⟨Finsupp.single () 1, (Finsupp.single () 2, -3)⟩ :
      Eqn ℚ Unit (Affine ℚ Unit)).coeff = 0 := by
    ext; rw [coeff_subs]; simp
  refine ⟨subs [((), -(0, 1))] ⟨Finsupp.single () 1, (Finsupp.single () 2, -3)⟩, ?_, hc2, ?_⟩
  · unfold withMoment
    rw [chain]
    simp only [hs, h1]
    have hsing : ([] : List (Unit × Affine ℚ Unit)) ++ [((), -((Finsupp.single () (1 : ℚ) ())⁻¹ • ((0, 1) : Affine ℚ Unit)))] =
        [((), -(0, 1))] := by simp
    rw [hsing, chain]
    simp only [hc2, Finsupp.support_zero, Finset.toList_empty]
    rfl
  · unfold subs
    simp
    norm_num

/-- C115, an example: the moment is `2`. -/
example : ∃ s : Unit → ℚ, momentSubsDict withMoment = .ok (some s) ∧ s () = 2 := by
  classical
  obtain ⟨e, hc, h0, hr⟩ := chain_withMoment
  have hme : momentEquations [⟨Finsupp.single () 1, (0, 1)⟩, e] = [e] := by
    unfold momentEquations
    simp [hr]
  have hev : ∀ m : Unit → ℚ, evalMoments m e.rest = 2 * m () - 4 := by
    intro m
    unfold evalMoments
    simp [hr]
    ring
  have hiff : ∀ m : Unit → ℚ, IsSolution [⟨Finsupp.single () 1, (0, 1)⟩, e] m ↔ m () = 2 := by
    intro m
    unfold IsSolution
    rw [hme]
    constructor
    · rintro ⟨h, -⟩
      have := h e (by simp)
      rw [hev] at this
      linarith
    · intro h
      refine ⟨fun e' he' => ?_, fun k hk => absurd ?_ hk⟩
      · rw [List.mem_singleton.1 he', hev, h]; norm_num
      · exact ⟨e, by rw [hme]; simp, by rw [hr]; simp⟩
  have hu : (∀ e' ∈ momentEquations [⟨Finsupp.single () 1, (0, 1)⟩, e], e'.coeff = 0) ∧
      ∃! m, IsSolution [⟨Finsupp.single () 1, (0, 1)⟩, e] m := by
    refine ⟨fun e' he' => ?_, fun _ => 2, (hiff _).2 rfl, fun m hm => funext fun _ => (hiff m).1 hm⟩
    rw [hme] at he'
    rw [List.mem_singleton.1 he']; exact h0
  refine ⟨hu.2.choose, ?_, (hiff _).1 hu.2.choose_spec.1⟩
  unfold momentSubsDict
  rw [hc]
  simp only [Except.map]
  rw [dif_pos hu]

end ChainSolve
end Lbm
