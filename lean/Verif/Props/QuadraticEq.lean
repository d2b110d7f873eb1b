import Verif.QuadraticEq
import Verif.Maxwellian
import Verif.StencilTables
import Mathlib.Algebra.CharZero.Defs
import Mathlib.Algebra.CharZero.Infinite
import Mathlib.Algebra.MvPolynomial.Funext
import Mathlib.Algebra.BigOperators.Fin
import Mathlib.Tactic.Ring
import Mathlib.Tactic.FieldSimp
import Mathlib.Tactic.LinearCombination
import Mathlib.Tactic.FinCases
import Mathlib.Tactic.Positivity

/-!
# Property C76: construction of quadratic equilibria
-/

namespace Lbm
namespace QuadraticEq

open MvPolynomial

variable {D : ℕ} {K : Type} [Field K]

/-- **Spec.** The scalar product of a velocity and a direction. -/
def Spec.dot (u : Fin D → K) (d : Vec D) : K := ∑ i, u i * (d i : K)

/-- **Spec.** The square of a velocity. -/
def Spec.sq (u : Fin D → K) : K := ∑ i, u i ^ 2

/-- **Spec.** The quadratic form of equation (5.4.1), as a function. -/
def Spec.quadratic (v : Sol K) (d : Vec D) (u : Fin D → K) : K :=
  v.a + v.b * Spec.dot u d + v.c * Spec.dot u d ^ 2 + v.d * Spec.sq u

/-- **Spec.** An equilibrium of the form (5.4.1): the coefficients depend on the speed of the direction only. -/
def Spec.Generic (l : List (Vec D × MvPolynomial (Fin D) K)) (par : ℕ → Sol K) : Prop :=
  ∀ e ∈ l, ∀ u, eval u e.2 = Spec.quadratic (par (speed e.1)) e.1 u

theorem eval_generic (v : Sol K) (d : Vec D) (u : Fin D → K) : eval u (generic v d) = Spec.quadratic v d u := by
  unfold generic uTimesD uTimesU Spec.quadratic Spec.dot Spec.sq
  simp [sq]

theorem speed_eq_zero {d : Vec D} : speed d = 0 ↔ d = 0 := by
  unfold speed
  rw [Finset.sum_eq_zero_iff]
  constructor
  · intro h; funext i; exact Int.natAbs_eq_zero.1 (h i (Finset.mem_univ i))
  · rintro rfl i _; rfl

theorem dot_smul (t : K) (u : Fin D → K) (d : Vec D) : Spec.dot (fun i => t * u i) d = t * Spec.dot u d := by
  unfold Spec.dot; rw [Finset.mul_sum]; exact Finset.sum_congr rfl fun i _ => by ring

theorem sq_smul (t : K) (u : Fin D → K) : Spec.sq (fun i => t * u i) = t ^ 2 * Spec.sq u := by
  unfold Spec.sq; rw [Finset.mul_sum]; exact Finset.sum_congr rfl fun i _ => by ring

section charZero
variable [CharZero K]

theorem dot_self (d : Vec D) : Spec.dot (fun i => (d i : K)) d = ((∑ i, d i ^ 2 : ℤ) : K) := by
  unfold Spec.dot
  push_cast
  exact Finset.sum_congr rfl fun i _ => by ring

theorem sq_self (d : Vec D) : Spec.sq (fun i => (d i : K)) = ((∑ i, d i ^ 2 : ℤ) : K) := by
  unfold Spec.sq
  push_cast
  rfl

theorem norm_ne_zero {d : Vec D} (hd : d ≠ 0) : ((∑ i, d i ^ 2 : ℤ) : K) ≠ 0 := by
  rw [Int.cast_ne_zero]
  obtain ⟨k, hk⟩ := Function.ne_iff.1 hd
  have : 0 < ∑ i, d i ^ 2 := Finset.sum_pos' (fun i _ => sq_nonneg _) ⟨k, Finset.mem_univ k, by
    have : d k ≠ 0 := hk
    positivity⟩
  exact this.ne'

/-- A vector perpendicular to a direction, in at least two dimensions. -/
theorem perpendicular (hD : 2 ≤ D) (d : Vec D) (hd : d ≠ 0) :
    ∃ w : Vec D, w ≠ 0 ∧ ∑ i, w i * d i = 0 := by
  obtain ⟨k, hk⟩ := Function.ne_iff.1 hd
  obtain ⟨j, hj⟩ : ∃ j : Fin D, j ≠ k := by
    by_cases h : k.val = 0
    · exact ⟨⟨1, by omega⟩, fun h' => by rw [← h'] at h; simp at h⟩
    · exact ⟨⟨0, by omega⟩, fun h' => h (by rw [← h'])⟩
  refine ⟨fun i => if i = k then d j else if i = j then -d k else 0, ?_, ?_⟩
  · intro h
    have := congrFun h j
    simp only [if_neg hj, if_true, Pi.zero_apply, neg_eq_zero] at this
    exact hk this
  · have : ∀ i, (if i = k then d j else if i = j then -d k else 0) * d i =
        (if i = k then d j * d k else 0) + (if i = j then -d k * d j else 0) := by
      intro i
      by_cases h1 : i = k
      · subst h1; simp [hj.symm]
      · by_cases h2 : i = j
        · subst h2; simp [hj]
        · simp [h1, h2]
    simp only [this, Finset.sum_add_distrib, Finset.sum_ite_eq', Finset.mem_univ, if_true]
    ring

theorem dot_cast (w d : Vec D) : Spec.dot (fun i => (w i : K)) d = ((∑ i, w i * d i : ℤ) : K) := by
  unfold Spec.dot; push_cast; rfl

/-- The values of the parameters that the form determines. -/
theorem quadratic_unique (v v' : Sol K) (d : Vec D) (h : ∀ u, Spec.quadratic v d u = Spec.quadratic v' d u) :
    v.a = v'.a ∧ (d ≠ 0 → v.b = v'.b) ∧ (2 ≤ D → d ≠ 0 → v.c = v'.c) ∧ (2 ≤ D → v.d = v'.d) ∧ (d = 0 → 0 < D → v.d = v'.d) ∧
      (D = 1 → d ≠ 0 → v.c * ((∑ i, d i ^ 2 : ℤ) : K) + v.d = v'.c * ((∑ i, d i ^ 2 : ℤ) : K) + v'.d) := by
  have ha : v.a = v'.a := by
    have := h 0
    simpa [Spec.quadratic, Spec.dot, Spec.sq] using this
  have h1 : ∀ u, v.b * Spec.dot u d = v'.b * Spec.dot u d ∧ v.c * Spec.dot u d ^ 2 + v.d * Spec.sq u =
      v'.c * Spec.dot u d ^ 2 + v'.d * Spec.sq u := by
    intro u
    have e1 := h u
    have e2 := h fun i => -1 * u i
    unfold Spec.quadratic at e1 e2
    rw [dot_smul, sq_smul, ha] at e2
    rw [ha] at e1
    have h2 : (2 : K) ≠ 0 := two_ne_zero
    constructor
    · apply mul_left_cancel₀ h2; linear_combination e1 - e2
    · apply mul_left_cancel₀ h2; linear_combination e1 + e2
  have hd2 : 2 ≤ D → v.d = v'.d := by
    intro hD
    by_cases hd : d = 0
    · have hD0 : 0 < D := by omega
      have := (h1 (Pi.single ⟨0, hD0⟩ 1)).2
      have e : Spec.sq (Pi.single (⟨0, hD0⟩ : Fin D) (1 : K)) = 1 := by
        unfold Spec.sq; simp [Pi.single_apply]
      have e' : Spec.dot (Pi.single (⟨0, hD0⟩ : Fin D) (1 : K)) d = 0 := by
        rw [hd]; unfold Spec.dot; simp
      rw [e, e'] at this
      simpa using this
    · obtain ⟨w, hw, hwd⟩ := perpendicular hD d hd
      have := (h1 fun i => (w i : K)).2
      rw [dot_cast, hwd, sq_self] at this
      have h3 := norm_ne_zero (K := K) hw
      apply mul_right_cancel₀ h3
      simpa using this
  refine ⟨ha, ?_, ?_, hd2, ?_, ?_⟩
  · intro hd
    have := (h1 fun i => (d i : K)).1
    rw [dot_self] at this
    exact mul_right_cancel₀ (norm_ne_zero hd) this
  · intro hD hd
    have := (h1 fun i => (d i : K)).2
    rw [dot_self, hd2 hD] at this
    exact mul_right_cancel₀ (pow_ne_zero 2 (norm_ne_zero hd)) (add_right_cancel this)
  · intro hd hD0
    have := (h1 (Pi.single ⟨0, hD0⟩ 1)).2
    have e : Spec.sq (Pi.single (⟨0, hD0⟩ : Fin D) (1 : K)) = 1 := by
      unfold Spec.sq; simp [Pi.single_apply]
    have e' : Spec.dot (Pi.single (⟨0, hD0⟩ : Fin D) (1 : K)) d = 0 := by
      rw [hd]; unfold Spec.dot; simp
    rw [e, e'] at this
    simpa using this
  · intro _ hd
    have := (h1 fun i => (d i : K)).2
    rw [dot_self, sq_self] at this
    apply mul_right_cancel₀ (norm_ne_zero (K := K) hd)
    linear_combination this

theorem sq_one_dim (u : Fin 1 → K) (d : Vec 1) : Spec.dot u d ^ 2 = (speed d : K) ^ 2 * Spec.sq u := by
  unfold Spec.dot Spec.sq speed
  simp only [Fin.sum_univ_one]
  have : ((d 0).natAbs : K) ^ 2 = (d 0 : K) ^ 2 := by
    have h := Int.natAbs_sq (d 0)
    have h2 : (((d 0).natAbs : ℤ) : K) ^ 2 = ((d 0 : ℤ) : K) ^ 2 := by
      rw [← Int.cast_pow, ← Int.cast_pow, h]
    simpa using h2
  rw [this]; ring

/-- The items say the same as the form. -/
theorem solved_iff (hD : 0 < D) (v v' : Sol K) (d : Vec D) :
    solved D (speed d) v = solved D (speed d) v' ↔ ∀ u, Spec.quadratic v d u = Spec.quadratic v' d u := by
  constructor
  · intro h u
    unfold Spec.quadratic
    unfold solved at h
    split_ifs at h with h0 h1
    · simp at h
      have hd := speed_eq_zero.1 h0
      have : Spec.dot u d = 0 := by rw [hd]; unfold Spec.dot; simp
      rw [this, h.1, h.2]; ring
    · simp at h
      subst h1
      rw [sq_one_dim, h.1, h.2.1]
      have hs : (speed d : K) ≠ 0 := Nat.cast_ne_zero.2 h0
      have := h.2.2
      field_simp at this
      linear_combination Spec.sq u * this
    · simp at h
      rw [h.1, h.2.1, h.2.2.1, h.2.2.2]
  · intro h
    obtain ⟨ha, hb, hc, hd, hd0, h1⟩ := quadratic_unique v v' d h
    unfold solved
    split_ifs with e0 e1
    · rw [ha, hd0 (speed_eq_zero.1 e0) hD]
    · have hne : d ≠ 0 := fun hz => e0 (speed_eq_zero.2 hz)
      rw [ha, hb hne]
      have h2 := h1 e1 hne
      have h3 : ((∑ i, d i ^ 2 : ℤ) : K) = (speed d : K) ^ 2 := by
        subst e1
        have := sq_one_dim (fun i => (d i : K)) d
        rw [dot_self, sq_self] at this
        apply mul_right_cancel₀ (norm_ne_zero (K := K) hne)
        rw [← this]; ring
      rw [h3] at h2
      have hs : (speed d : K) ≠ 0 := Nat.cast_ne_zero.2 e0
      have h4 : v.c + v.d / (speed d : K) ^ 2 = v'.c + v'.d / (speed d : K) ^ 2 := by
        field_simp
        linear_combination h2
      rw [h4]
    · have hne : d ≠ 0 := fun hz => e0 (speed_eq_zero.2 hz)
      have hD2 : 2 ≤ D := by omega
      rw [ha, hb hne, hc hD2 hne, hd hD2]

theorem solve_eq_some (hD : 0 < D) (d : Vec D) (f : MvPolynomial (Fin D) K) (v : Sol K)
    (h : ∀ u, eval u f = Spec.quadratic v d u) : solve d f = some (solved D (speed d) v) := by
  have hv : f - generic v d = 0 := by
    rw [sub_eq_zero]
    exact MvPolynomial.funext fun u => by rw [h u, eval_generic]
  have hex : ∃ v : Sol K, f - generic v d = 0 := ⟨v, hv⟩
  unfold solve
  rw [dif_pos hex]
  congr 1
  rw [solved_iff hD]
  intro u
  have := hex.choose_spec
  rw [sub_eq_zero] at this
  rw [← eval_generic, ← this, h u]

theorem solve_some (d : Vec D) (f : MvPolynomial (Fin D) K) (items : List (Letter × Val K)) (h : solve d f = some items) :
    ∃ v : Sol K, (∀ u, eval u f = Spec.quadratic v d u) ∧ items = solved D (speed d) v := by
  unfold solve at h
  split_ifs at h with hex
  refine ⟨hex.choose, fun u => ?_, (Option.some.inj h).symm⟩
  have := hex.choose_spec
  rw [sub_eq_zero] at this
  rw [← eval_generic, ← this]

omit [CharZero K] in
theorem lookup_append_of_some {l l' : Dict K} {k : Letter × ℕ} {v : Val K} (h : l.lookup k = some v) :
    (l ++ l').lookup k = some v := by
  rw [List.lookup_append, h]; rfl

variable [DecidableEq K]

omit [CharZero K] in
theorem addItems_ok {s : ℕ} : ∀ {items : List (Letter × Val K)} {r r' : Dict K}, addItems s items r = .ok r' →
    (∀ k v, r.lookup k = some v → r'.lookup k = some v) ∧ ∀ e ∈ items, r'.lookup (e.1, s) = some e.2
  | [], r, r', h => by
    cases h
    exact ⟨fun _ _ h => h, fun e he => absurd he List.not_mem_nil⟩
  | (l, v) :: items, r, r', h => by
    unfold addItems at h
    rcases hl : r.lookup (l, s) with _ | v'
    · rw [hl] at h
      obtain ⟨h1, h2⟩ := addItems_ok h
      refine ⟨fun k w hk => h1 k w (lookup_append_of_some hk), fun e he => ?_⟩
      rcases List.mem_cons.1 he with rfl | he
      · refine h1 _ _ ?_
        rw [List.lookup_append, hl]
        simp
      · exact h2 e he
    · rw [hl] at h
      simp only at h
      split_ifs at h with hv
      push Not at hv
      obtain ⟨h1, h2⟩ := addItems_ok h
      refine ⟨h1, fun e he => ?_⟩
      rcases List.mem_cons.1 he with rfl | he
      · rw [← hv]; exact h1 _ _ hl
      · exact h2 e he

omit [CharZero K] in
theorem addItems_consistent (g : Letter × ℕ → Val K) {s : ℕ} : ∀ {items : List (Letter × Val K)} {r : Dict K},
    (∀ k v, r.lookup k = some v → v = g k) → (∀ e ∈ items, e.2 = g (e.1, s)) →
      ∃ r', addItems s items r = .ok r' ∧ ∀ k v, r'.lookup k = some v → v = g k
  | [], r, hr, _ => ⟨r, rfl, hr⟩
  | (l, v) :: items, r, hr, hi => by
    have hv := hi (l, v) List.mem_cons_self
    have hi' : ∀ e ∈ items, e.2 = g (e.1, s) := fun e he => hi e (List.mem_cons_of_mem _ he)
    unfold addItems
    rcases hl : r.lookup (l, s) with _ | v'
    · refine addItems_consistent g ?_ hi'
      intro k w hk
      rw [List.lookup_append] at hk
      rcases hrk : r.lookup k with _ | w'
      · rw [hrk] at hk
        simp only [Option.none_or] at hk
        rw [List.lookup_cons] at hk
        split at hk
        · rename_i heq
          cases hk
          rw [beq_iff_eq] at heq
          rw [heq]; exact hv
        · cases hk
      · rw [hrk] at hk
        simp only [Option.some_or] at hk
        cases hk
        exact hr k _ hrk
    · simp only
      rw [if_neg]
      · exact addItems_consistent g hr hi'
      · push Not
        rw [hr _ _ hl]; exact hv.symm

omit [CharZero K] in
theorem addItems_error {s : ℕ} : ∀ {items : List (Letter × Val K)} {r : Dict K} {e : PyErr},
    addItems s items r = .error e → e = .valueError
  | [], r, e, h => by cases h
  | (l, v) :: items, r, e, h => by
    unfold addItems at h
    split at h
    · split_ifs at h
      · cases h; rfl
      · exact addItems_error h
    · exact addItems_error h

theorem matchLoop_error : ∀ {l : List (Vec D × MvPolynomial (Fin D) K)} {r : Dict K} {e : PyErr},
    matchLoop l r = .error e → e = .valueError
  | [], r, e, h => by cases h
  | (d, f) :: l, r, e, h => by
    unfold matchLoop at h
    split at h
    · cases h; rfl
    · rename_i items _
      rcases ha : addItems (speed d) items r with e' | r'
      · rw [ha] at h
        cases h
        exact addItems_error ha
      · rw [ha] at h
        exact matchLoop_error h

/-- The value a parameter has in the result, if it has one. -/
noncomputable def target (D : ℕ) (par : ℕ → Sol K) (k : Letter × ℕ) : Val K :=
  match (solved D k.2 (par k.2)).lookup k.1 with
  | some v => v
  | none => ⟨0, 0⟩

omit [CharZero K] [DecidableEq K] in
theorem target_solved (par : ℕ → Sol K) (s : ℕ) (e : Letter × Val K) (he : e ∈ solved D s (par s)) : e.2 = target D par (e.1, s) := by
  unfold target
  unfold solved at he ⊢
  split_ifs at he ⊢ <;> simp at he <;> rcases he with rfl | rfl | rfl | rfl <;> rfl

theorem matchLoop_generic (hD : 0 < D) (par : ℕ → Sol K) : ∀ (l : List (Vec D × MvPolynomial (Fin D) K)) (r : Dict K),
    Spec.Generic l par → (∀ k v, r.lookup k = some v → v = target D par k) → ∃ r', matchLoop l r = .ok r'
  | [], r, _, _ => ⟨r, rfl⟩
  | (d, f) :: l, r, hg, hr => by
    unfold matchLoop
    rw [solve_eq_some hD d f _ (hg (d, f) List.mem_cons_self)]
    simp only
    obtain ⟨r', h1, h2⟩ := addItems_consistent (target D par) (s := speed d) (items := solved D (speed d) (par (speed d))) hr
      (target_solved par _)
    rw [h1]
    exact matchLoop_generic hD par l r' (fun e he => hg e (List.mem_cons_of_mem _ he)) h2

theorem matchLoop_ok : ∀ {l : List (Vec D × MvPolynomial (Fin D) K)} {r r' : Dict K}, matchLoop l r = .ok r' →
    (∀ k v, r.lookup k = some v → r'.lookup k = some v) ∧ ∀ e ∈ l, ∃ v : Sol K, (∀ u, eval u e.2 = Spec.quadratic v e.1 u) ∧
      ∀ i ∈ solved D (speed e.1) v, r'.lookup (i.1, speed e.1) = some i.2
  | [], r, r', h => by
    cases h
    exact ⟨fun _ _ h => h, fun e he => absurd he List.not_mem_nil⟩
  | (d, f) :: l, r, r', h => by
    unfold matchLoop at h
    split at h
    · cases h
    · rename_i items hs
      rcases ha : addItems (speed d) items r with e' | r1
      · rw [ha] at h; cases h
      · rw [ha] at h
        obtain ⟨h1, h2⟩ := matchLoop_ok (r := r1) (r' := r') h
        obtain ⟨h3, h4⟩ := addItems_ok ha
        refine ⟨fun k v hk => h1 k v (h3 k v hk), fun e he => ?_⟩
        rcases List.mem_cons.1 he with rfl | he
        · obtain ⟨v, hv, rfl⟩ := solve_some d f items hs
          exact ⟨v, hv, fun i hi => h1 _ _ (h4 i hi)⟩
        · exact h2 e he

omit [CharZero K] [DecidableEq K] in
/-- Items found in the same dictionary are the same. -/
theorem solved_of_lookup (r : Dict K) (s : ℕ) (v v' : Sol K) (h : ∀ i ∈ solved D s v, r.lookup (i.1, s) = some i.2)
    (h' : ∀ i ∈ solved D s v', r.lookup (i.1, s) = some i.2) : solved D s v = solved D s v' := by
  unfold solved at *
  split_ifs at *
  · simp at h h'
    simp_all
  · simp at h h'
    simp_all
  · simp at h h'
    simp_all

/-- **C76 (which equilibria).** `match_generic_equilibrium_ansatz` returns a result exactly for the equilibria whose population in each direction is
`A + B (u·c) + C (u·c)² + D u²` with coefficients that depend on the speed of the direction only. -/
theorem C76_match_iff (hD : 0 < D) (stencil : List (Vec D)) (f : List (MvPolynomial (Fin D) K)) :
    (∃ r, matchAnsatz stencil f = .ok r) ↔ ∃ par, Spec.Generic (stencil.zip f) par := by
  constructor
  · rintro ⟨r, h⟩
    obtain ⟨-, h2⟩ := matchLoop_ok h
    have key : ∀ s, ∃ w : Sol K, (∃ e ∈ stencil.zip f, speed e.1 = s) → ∀ i ∈ solved D s w, r.lookup (i.1, s) = some i.2 := by
      intro s
      by_cases hs : ∃ e ∈ stencil.zip f, speed e.1 = s
      · obtain ⟨e, he, rfl⟩ := hs
        obtain ⟨v, -, hv⟩ := h2 e he
        exact ⟨v, fun _ => hv⟩
      · exact ⟨⟨0, 0, 0, 0⟩, fun h => absurd h hs⟩
    choose par hpar using key
    refine ⟨par, fun e he u => ?_⟩
    obtain ⟨v, hv, hi⟩ := h2 e he
    rw [hv u]
    exact (solved_iff hD _ _ _).1 (solved_of_lookup r _ _ _ hi (hpar _ ⟨e, he, rfl⟩)) u
  · rintro ⟨par, h⟩
    exact matchLoop_generic hD par _ [] h fun k v hk => by cases hk

/-- **C76 (failure).** Otherwise a `ValueError` is raised. -/
theorem C76_match_error (stencil : List (Vec D)) (f : List (MvPolynomial (Fin D) K)) (e : PyErr)
    (h : matchAnsatz stencil f = .error e) : e = .valueError := matchLoop_error h

/-- **C76 (what is returned).** The result holds the coefficients: in at least two dimensions `A` and `D` of each speed and `B` and `C` of each speed that
is not zero. In one dimension `C` is returned in terms of `D`. -/
theorem C76_match_values (hD : 0 < D) (stencil : List (Vec D)) (f : List (MvPolynomial (Fin D) K)) (par : ℕ → Sol K)
    (hg : Spec.Generic (stencil.zip f) par) (r : Dict K) (h : matchAnsatz stencil f = .ok r) :
    ∀ e ∈ stencil.zip f, r.lookup (.A, speed e.1) = some ⟨(par (speed e.1)).a, 0⟩ ∧
      (2 ≤ D → r.lookup (.D, speed e.1) = some ⟨(par (speed e.1)).d, 0⟩) ∧
      (e.1 ≠ 0 → r.lookup (.B, speed e.1) = some ⟨(par (speed e.1)).b, 0⟩ ∧
        (2 ≤ D → r.lookup (.C, speed e.1) = some ⟨(par (speed e.1)).c, 0⟩) ∧
        ∃ v, r.lookup (.C, speed e.1) = some v ∧ v.const + v.coeff * (par (speed e.1)).d = (par (speed e.1)).c) := by
  intro e he
  obtain ⟨-, h2⟩ := matchLoop_ok h
  obtain ⟨v, hv, hi⟩ := h2 e he
  have hsol : solved D (speed e.1) v = solved D (speed e.1) (par (speed e.1)) := by
    rw [solved_iff hD]
    intro u
    rw [← hv u, hg e he u]
  rw [hsol] at hi
  generalize hs : speed e.1 = s at *
  generalize par s = w at *
  by_cases h0 : s = 0
  · have hd : e.1 = 0 := speed_eq_zero.1 (hs.trans h0)
    unfold solved at hi
    rw [if_pos h0] at hi
    simp at hi
    exact ⟨hi.1, fun _ => hi.2, fun h => absurd hd h⟩
  · unfold solved at hi
    rw [if_neg h0] at hi
    by_cases h1 : D = 1
    · rw [if_pos h1] at hi
      simp at hi
      have hs0 : (s : K) ≠ 0 := Nat.cast_ne_zero.2 h0
      refine ⟨hi.1, fun h => by omega, fun _ => ⟨hi.2.1, fun h => by omega, _, hi.2.2, ?_⟩⟩
      simp only
      field_simp
      ring
    · rw [if_neg h1] at hi
      simp at hi
      exact ⟨hi.1, fun _ => hi.2.2.2, fun _ => ⟨hi.2.1, fun _ => hi.2.2.1, _, hi.2.2.1, by simp⟩⟩

/-- **C76 (round trip).** The ansatz is matched by its own coefficients. -/
theorem C76_round_trip (hD : 0 < D) (stencil : List (Vec D)) (par : ℕ → Sol K) :
    Spec.Generic (stencil.zip (ansatz par stencil)) par ∧ ∃ r, matchAnsatz stencil (ansatz par stencil) = .ok r := by
  have hg : Spec.Generic (stencil.zip (ansatz par stencil)) par := by
    intro e he u
    unfold ansatz at he
    rw [List.zip_map_right] at he
    obtain ⟨p, hp, rfl⟩ := List.mem_map.1 he
    have : p.1 = p.2 := by
      obtain ⟨i, h1, h2⟩ := List.mem_iff_getElem.1 hp
      rw [← h2]; simp
    simp only [Prod.map_fst, Prod.map_snd, id, ← this]
    exact eval_generic _ _ u
  exact ⟨hg, (C76_match_iff hD _ _).2 ⟨par, hg⟩⟩

/-- **C76 (clash).** Two directions with the same speed but different values at rest: the equilibrium is refused. -/
theorem C76_speed_clash (hD : 0 < D) (stencil : List (Vec D)) (f : List (MvPolynomial (Fin D) K)) (e e' : Vec D × MvPolynomial (Fin D) K)
    (he : e ∈ stencil.zip f) (he' : e' ∈ stencil.zip f) (hs : speed e.1 = speed e'.1) (hne : eval 0 e.2 ≠ eval 0 e'.2) :
    matchAnsatz stencil f = .error .valueError := by
  rcases h : matchAnsatz stencil f with err | r
  · rw [C76_match_error _ _ _ h]
  · exfalso
    obtain ⟨par, hg⟩ := (C76_match_iff hD stencil f).1 ⟨r, h⟩
    apply hne
    rw [hg e he 0, hg e' he' 0, hs]
    simp [Spec.quadratic, Spec.dot, Spec.sq]

/-! ### The Maxwellian -/

omit [CharZero K] [DecidableEq K] in
theorem foldl_sum {α : Type} (g : α → K) : ∀ (l : List α) (a : K), l.foldl (fun s p => s + g p) a = a + (l.map g).sum
  | [], a => by simp
  | x :: l, a => by rw [List.foldl_cons, foldl_sum g l, List.map_cons, List.sum_cons, add_assoc]

omit [CharZero K] [DecidableEq K] in
theorem eTimesU_ofFn (d : Vec D) (u : Fin D → K) : eTimesU (List.ofFn d) (List.ofFn u) = Spec.dot u d := by
  have hz : List.zip (List.ofFn d) (List.ofFn u) = List.ofFn fun i => (d i, u i) := by
    apply List.ext_getElem <;> simp
  unfold eTimesU Spec.dot
  rw [foldl_sum (fun p : ℤ × K => (p.1 : K) * p.2), hz, List.map_ofFn, List.sum_ofFn, zero_add]
  exact Finset.sum_congr rfl fun i _ => by simp [mul_comm]

omit [CharZero K] [DecidableEq K] in
theorem uTimesU_ofFn (u : Fin D → K) : Lbm.uTimesU (List.ofFn u) = Spec.sq u := by
  unfold Lbm.uTimesU Spec.sq
  rw [foldl_sum (fun a : K => a * a), List.map_ofFn, List.sum_ofFn, zero_add]
  exact Finset.sum_congr rfl fun i _ => by simp [sq]

/-- An equilibrium made of `discrete_equilibrium`, with weights by speed as `get_weights` has them. -/
def IsMaxwellian (l : List (Vec D × MvPolynomial (Fin D) K)) (w : ℕ → K) (rho csSq : K) (order : ℕ) (compressible : Bool) : Prop :=
  ∀ e ∈ l, ∀ u, eval u e.2 = discreteEquilibrium (List.ofFn e.1) (List.ofFn u) rho (w (speed e.1)) order csSq compressible

/-- **C76 (Maxwellian).** The discrete equilibrium of second order is matched, with `A = w ρ`, `B = w ρ / c_s²`,
`C = w ρ / (2 c_s⁴)`, `D = -w ρ / (2 c_s²)`; without the density in the last three in the incompressible case. -/
theorem C76_maxwellian (stencil : List (Vec D)) (f : List (MvPolynomial (Fin D) K)) (w : ℕ → K) (rho csSq : K) (hD : 0 < D)
    (compressible : Bool) (hf : IsMaxwellian (stencil.zip f) w rho csSq 2 compressible) :
    Spec.Generic (stencil.zip f) (fun s =>
      let r := if compressible then rho else 1
      ⟨w s * rho, w s * r / csSq, w s * r / (2 * csSq ^ 2), -(w s * r / (2 * csSq))⟩) ∧
    ∃ r, matchAnsatz stencil f = .ok r := by
  have hg : Spec.Generic (stencil.zip f) (fun s =>
      let r := if compressible then rho else 1
      ⟨w s * rho, w s * r / csSq, w s * r / (2 * csSq ^ 2), -(w s * r / (2 * csSq))⟩) := by
    intro e he u
    rw [hf e he u]
    unfold discreteEquilibrium Spec.quadratic
    rw [eTimesU_ofFn, uTimesU_ofFn]
    have h1 : ∀ x : K, 1 / 2 / x = 1 / (2 * x) := fun x => by rw [div_div]
    cases compressible
    · simp only [h1]
      norm_num
      simp only [div_eq_mul_inv, mul_inv]
      ring
    · simp only [h1]
      norm_num
      simp only [div_eq_mul_inv, mul_inv]
      ring
  exact ⟨hg, (C76_match_iff hD _ _).2 ⟨_, hg⟩⟩

/-- **C76 (third order).** In at least two dimensions the equilibrium of third order is refused, if some moving direction has a weight. -/
theorem C76_third_order (hD : 2 ≤ D) (stencil : List (Vec D)) (f : List (MvPolynomial (Fin D) K)) (w : ℕ → K) (rho csSq : K)
    (hrho : rho ≠ 0) (hcs : csSq ≠ 0) (compressible : Bool) (hf : IsMaxwellian (stencil.zip f) w rho csSq 3 compressible)
    (e : Vec D × MvPolynomial (Fin D) K) (he : e ∈ stencil.zip f) (hd : e.1 ≠ 0) (hw : w (speed e.1) ≠ 0) :
    matchAnsatz stencil f = .error .valueError := by
  rcases h : matchAnsatz stencil f with err | r
  · rw [C76_match_error _ _ _ h]
  · exfalso
    obtain ⟨par, hg⟩ := (C76_match_iff (by omega) stencil f).1 ⟨r, h⟩
    have hr : (if compressible then rho else 1) ≠ 0 := by split_ifs; exacts [hrho, one_ne_zero]
    have key : ∀ v : Fin D → K, 1 / 6 / csSq ^ 3 * Spec.dot v e.1 ^ 3 - 1 / 2 / csSq ^ 2 * Spec.sq v * Spec.dot v e.1 = 0 := by
      intro v
      have h0 : ∀ t : K, _ := fun t => (hg e he fun i => t * v i).symm.trans (hf e he fun i => t * v i)
      simp only [discreteEquilibrium, Spec.quadratic, eTimesU_ofFn, uTimesU_ofFn, dot_smul, sq_smul] at h0
      have n1 : ¬ 3 ≤ 1 := by norm_num
      have n2 : ¬ 3 ≤ 2 := by norm_num
      simp only [if_neg n1, if_neg n2] at h0
      have a0 := h0 0
      have a1 := h0 1
      have a2 := h0 2
      have a3 := h0 3
      have h6 : (6 : K) ≠ 0 := by norm_num
      apply mul_left_cancel₀ (mul_ne_zero h6 (mul_ne_zero hr hw))
      rw [mul_zero]
      linear_combination -(a3 - 3 * a2 + 3 * a1 - a0)
    obtain ⟨x, hx, hxd⟩ := perpendicular hD e.1 hd
    have k1 := key fun i => (e.1 i : K)
    have k2 := key fun i => ((e.1 i + x i : ℤ) : K)
    have hdot : ∑ i, (e.1 i + x i) * e.1 i = ∑ i, e.1 i ^ 2 := by
      have : ∑ i, (e.1 i + x i) * e.1 i = ∑ i, e.1 i ^ 2 + ∑ i, x i * e.1 i := by
        rw [← Finset.sum_add_distrib]; exact Finset.sum_congr rfl fun i _ => by ring
      rw [this, hxd, add_zero]
    have hsq : ∑ i, (e.1 i + x i) ^ 2 = ∑ i, e.1 i ^ 2 + ∑ i, x i ^ 2 := by
      have : ∑ i, (e.1 i + x i) ^ 2 = ∑ i, e.1 i ^ 2 + ∑ i, x i ^ 2 + 2 * ∑ i, x i * e.1 i := by
        rw [Finset.mul_sum, ← Finset.sum_add_distrib, ← Finset.sum_add_distrib]
        exact Finset.sum_congr rfl fun i _ => by ring
      rw [this, hxd]; ring
    rw [dot_self, sq_self] at k1
    have e2 : Spec.sq (fun i => ((e.1 i + x i : ℤ) : K)) = ((∑ i, (e.1 i + x i) ^ 2 : ℤ) : K) := sq_self fun i => e.1 i + x i
    have e3 : Spec.dot (fun i => ((e.1 i + x i : ℤ) : K)) e.1 = ((∑ i, (e.1 i + x i) * e.1 i : ℤ) : K) := dot_cast _ _
    rw [e2, e3, hdot, hsq, Int.cast_add] at k2
    have h5 : 1 / 2 / csSq ^ 2 * ((∑ i, x i ^ 2 : ℤ) : K) * ((∑ i, e.1 i ^ 2 : ℤ) : K) = 0 := by linear_combination k1 - k2
    have h6 : (1 / 2 / csSq ^ 2 : K) ≠ 0 := div_ne_zero (div_ne_zero one_ne_zero two_ne_zero) (pow_ne_zero 2 hcs)
    rcases mul_eq_zero.1 h5 with h7 | h7
    · rcases mul_eq_zero.1 h7 with h8 | h8
      · exact h6 h8
      · exact norm_ne_zero hx h8
    · exact norm_ne_zero hd h7

/-! ### Moment constraints -/

omit [CharZero K] [DecidableEq K] in
theorem eval_discreteMoment (stencil : List (Vec D)) (f : List (MvPolynomial (Fin D) K)) (e : Fin D → ℕ) (u : Fin D → K) :
    eval u (discreteMoment stencil f e) = ((stencil.zip f).map fun p => (∏ i, ((p.1 i : ℤ) : K) ^ e i) * eval u p.2).sum := by
  unfold discreteMoment
  rw [map_list_sum, List.map_map]
  congr 1
  refine List.map_congr_left fun p _ => ?_
  simp

omit [DecidableEq K] in
/-- **C76 (constraints).** All constraint equations hold exactly if the moments of the equilibrium have the desired values, for all
velocities. -/
theorem C76_constraints (stencil : List (Vec D)) (f : List (MvPolynomial (Fin D) K))
    (values : List ((Fin D → ℕ) × MvPolynomial (Fin D) K)) :
    (∀ x ∈ momentConstraints stencil f values, x = 0) ↔ ∀ mv ∈ values, ∀ u : Fin D → K,
      ((stencil.zip f).map fun p => (∏ i, ((p.1 i : ℤ) : K) ^ mv.1 i) * eval u p.2).sum = eval u mv.2 := by
  constructor
  · intro h mv hmv u
    have h0 : discreteMoment stencil f mv.1 - mv.2 = 0 := by
      ext p
      rw [coeff_zero]
      by_cases hp : p ∈ (discreteMoment stencil f mv.1 - mv.2).support
      · exact h _ ⟨mv, hmv, .inl ⟨p, hp, rfl⟩⟩
      · exact notMem_support_iff.1 hp
    rw [← eval_discreteMoment, sub_eq_zero.1 h0]
  · rintro h x ⟨mv, hmv, ⟨p, hp, hx⟩ | ⟨-, hx⟩⟩
    · have h0 : discreteMoment stencil f mv.1 = mv.2 := MvPolynomial.funext fun u => by rw [eval_discreteMoment, h mv hmv u]
      rw [hx, h0, sub_self, coeff_zero]
    · exact hx

omit [CharZero K] [DecidableEq K] in
theorem prod_exponents (d : Vec D) : ∀ l : List (Fin D), ∏ i, ((d i : ℤ) : K) ^ exponents l i = (l.map fun i => ((d i : ℤ) : K)).prod
  | [] => by simp [exponents]
  | j :: l => by
    rw [List.map_cons, List.prod_cons, ← prod_exponents d l]
    have : ∀ i, ((d i : ℤ) : K) ^ exponents (j :: l) i = (if i = j then ((d i : ℤ) : K) else 1) * ((d i : ℤ) : K) ^ exponents l i := by
      intro i
      unfold exponents
      rw [List.count_cons]
      by_cases h : i = j
      · subst h; simp [pow_succ, mul_comm]
      · simp [h, Ne.symm h]
    simp only [this, Finset.prod_mul_distrib, Finset.prod_ite_eq', Finset.mem_univ, if_true]

/-- **C76 (moments do not depend on the order).** The value demanded of a moment does not depend on the order of the directions. -/
theorem C76_values_perm (rho p : K) {l l' : List (Fin D)} (h : l.Perm l') : hydrodynamicValue rho p l = hydrodynamicValue rho p l' := by
  have s2 : ∀ i j : Fin D, hydrodynamicValue rho p [i, j] = hydrodynamicValue rho p [j, i] := by
    intro i j
    simp only [hydrodynamicValue, eq_comm (a := j) (b := i)]
    rw [mul_comm (X i)]
  have s3 : ∀ i j k : Fin D, hydrodynamicValue rho p [i, j, k] = hydrodynamicValue rho p [j, i, k] := by
    intro i j k
    simp only [hydrodynamicValue, eq_comm (a := j) (b := i)]
    ring
  have s3' : ∀ i j k : Fin D, hydrodynamicValue rho p [i, j, k] = hydrodynamicValue rho p [i, k, j] := by
    intro i j k
    simp only [hydrodynamicValue, eq_comm (a := k) (b := j)]
    ring
  have swap : ∀ (m : List (Fin D)) (i j : Fin D) (n : List (Fin D)),
      hydrodynamicValue rho p (m ++ i :: j :: n) = hydrodynamicValue rho p (m ++ j :: i :: n) := by
    intro m i j n
    match m, n with
    | [], [] => exact s2 i j
    | [], [k] => exact s3 i j k
    | [], _ :: _ :: _ => rfl
    | [k], [] => exact s3' k i j
    | [_], _ :: _ => rfl
    | [_, _], _ => rfl
    | [_, _, _], _ => rfl
    | _ :: _ :: _ :: _ :: _, _ => rfl
  have key : ∀ m, hydrodynamicValue rho p (m ++ l) = hydrodynamicValue rho p (m ++ l') := by
    induction h with
    | nil => intro m; rfl
    | cons x _ ih =>
      intro m
      have := ih (m ++ [x])
      simpa using this
    | swap x y l => intro m; exact swap m y x l
    | trans _ _ ih1 ih2 => intro m; exact (ih1 m).trans (ih2 m)
  exact key []

example (rho p : ℚ) : hydrodynamicValue rho p [(0 : Fin 2), 1, 0] = C p * X 1 := by
  rw [C76_values_perm rho p (List.Perm.swap 1 0 [0])]
  simp [hydrodynamicValue]

/-- **C76 (pressure).** If the components of the directions are -1, 0, 1 then for no equilibrium at all the moments of first and third order can have
the hydrodynamic values unless `p = ρ / 3`: the unknown `p` is determined, `c_s² = 1 / 3`. -/
theorem C76_pressure (stencil : List (Vec D)) (hst : ∀ d ∈ stencil, ∀ i, d i = -1 ∨ d i = 0 ∨ d i = 1)
    (f : List (MvPolynomial (Fin D) K)) (rho p : K) (i : Fin D)
    (h : ∀ x ∈ momentConstraints stencil f ([[i], [i, i, i]].map fun l => (exponents l, hydrodynamicValue rho p l)), x = 0) :
    p = rho / 3 := by
  have hm := (C76_constraints stencil f _).1 h
  have h1 := hm (exponents [i], hydrodynamicValue rho p [i]) (by simp) (Pi.single i 1)
  have h3 := hm (exponents [i, i, i], hydrodynamicValue rho p [i, i, i]) (by simp) (Pi.single i 1)
  simp only [prod_exponents] at h1 h3
  have he : ((stencil.zip f).map fun p => (([i, i, i] : List (Fin D)).map fun j => ((p.1 j : ℤ) : K)).prod * eval (Pi.single i 1) p.2) =
      (stencil.zip f).map fun p => (([i] : List (Fin D)).map fun j => ((p.1 j : ℤ) : K)).prod * eval (Pi.single i 1) p.2 := by
    refine List.map_congr_left fun q hq => ?_
    rcases hst q.1 (List.of_mem_zip hq).1 i with h | h | h <;> simp [h]
  rw [he, h1] at h3
  simp [hydrodynamicValue] at h3
  rw [h3]
  ring

end charZero

/-! ### D2Q9 -/

/-- D2Q9 in the order of lbmpy -/
def q9 : List (Vec 2) :=
  [![0, 0], ![0, 1], ![0, -1], ![-1, 0], ![1, 0], ![-1, 1], ![1, 1], ![-1, -1], ![1, -1]]

example : q9.map (fun d => [d 0, d 1]) = Tables.D2Q9_walberla := by decide

/-- The moments up to third order in two dimensions (line 100) -/
def momentsUpTo3 : List (List (Fin 2)) := [[], [0], [1], [0, 0], [0, 1], [1, 1], [0, 0, 0], [0, 0, 1], [0, 1, 1], [1, 1, 1]]

theorem zip_ansatz (par : ℕ → Sol K) (stencil : List (Vec D)) :
    stencil.zip (ansatz par stencil) = stencil.map fun d => (d, generic (par (speed d)) d) := by
  unfold ansatz
  apply List.ext_getElem <;> simp

theorem q9_moment (par : ℕ → Sol K) (l : List (Fin 2)) (u : Fin 2 → K) :
    ((q9.zip (ansatz par q9)).map fun p => (∏ i, ((p.1 i : ℤ) : K) ^ exponents l i) * eval u p.2).sum =
      (q9.map fun d => (l.map fun i => ((d i : ℤ) : K)).prod * Spec.quadratic (par (speed d)) d u).sum := by
  rw [zip_ansatz, List.map_map]
  congr 1
  refine List.map_congr_left fun d _ => ?_
  simp only [Function.comp, prod_exponents, eval_generic]

/-- **C76 (D2Q9).** The generic equilibrium on D2Q9 has the hydrodynamic moments up to third order exactly if `p = ρ / 3` and the coefficients satisfy
the equations below: `B` and `C` are determined, `A` and `D` up to one free number each. -/
theorem C76_d2q9 [CharZero K] (par : ℕ → Sol K) (rho p : K) :
    (∀ x ∈ momentConstraints q9 (ansatz par q9) (momentsUpTo3.map fun l => (exponents l, hydrodynamicValue rho p l)), x = 0) ↔
      p = rho / 3 ∧ (par 0).a + 4 * (par 1).a + 4 * (par 2).a = rho ∧ 2 * (par 1).a + 4 * (par 2).a = p ∧
      (par 1).b = rho / 3 ∧ (par 2).b = rho / 12 ∧ (par 1).c = rho / 2 ∧ (par 2).c = rho / 8 ∧
      2 * (par 1).d + 4 * (par 2).d = -rho / 2 ∧ (par 0).d + 4 * (par 1).d + 4 * (par 2).d = -3 * rho / 2 := by
  rw [C76_constraints]
  have sp : ∀ d ∈ q9, speed d = if d = ![0, 0] then 0 else if d 0 = 0 ∨ d 1 = 0 then 1 else 2 := by decide
  have hs : ∀ (l : List (Fin 2)) (u : Fin 2 → K),
      (q9.map fun d => (l.map fun i => ((d i : ℤ) : K)).prod * Spec.quadratic (par (speed d)) d u).sum =
      (q9.map fun d => (l.map fun i => ((d i : ℤ) : K)).prod *
        Spec.quadratic (par (if d = ![0, 0] then 0 else if d 0 = 0 ∨ d 1 = 0 then 1 else 2)) d u).sum := by
    intro l u
    refine congrArg List.sum (List.map_congr_left fun d hd => ?_)
    rw [sp d hd]
  have hev : ∀ mv ∈ momentsUpTo3.map (fun l => (exponents l, hydrodynamicValue rho p l)), ∃ l ∈ momentsUpTo3,
      mv = (exponents l, hydrodynamicValue rho p l) := by
    intro mv hmv
    obtain ⟨l, hl, rfl⟩ := List.mem_map.1 hmv
    exact ⟨l, hl, rfl⟩
  constructor
  · intro h
    have h' : ∀ l ∈ momentsUpTo3, ∀ u : Fin 2 → K,
        (q9.map fun d => (l.map fun i => ((d i : ℤ) : K)).prod *
          Spec.quadratic (par (if d = ![0, 0] then 0 else if d 0 = 0 ∨ d 1 = 0 then 1 else 2)) d u).sum =
          eval u (hydrodynamicValue rho p l) := by
      intro l hl u
      rw [← hs, ← q9_moment]
      exact h (exponents l, hydrodynamicValue rho p l) (List.mem_map.2 ⟨l, hl, rfl⟩) u
    have e0 := h' [] (by decide) ![0, 0]
    have e0x := h' [] (by decide) ![1, 0]
    have e1 := h' [0] (by decide) ![1, 0]
    have e2 := h' [0, 0] (by decide) ![0, 0]
    have e2x := h' [0, 0] (by decide) ![1, 0]
    have e2y := h' [0, 0] (by decide) ![0, 1]
    have exy := h' [0, 1] (by decide) ![1, 1]
    have e3 := h' [0, 0, 0] (by decide) ![1, 0]
    have e21 := h' [0, 0, 1] (by decide) ![0, 1]
    clear h h' hs sp hev
    simp [q9, Spec.quadratic, Spec.dot, Spec.sq, hydrodynamicValue] at e0 e0x e1 e2 e2x e2y exy e3 e21
    have hp : p = rho / 3 := by linear_combination (e1 - e3) / 3
    have hb2 : (par 2).b = rho / 12 := by linear_combination e21 / 4 + hp / 4
    have hb1 : (par 1).b = rho / 3 := by linear_combination e1 / 2 - 2 * hb2
    have hc2 : (par 2).c = rho / 8 := by linear_combination exy / 8
    have hc1 : (par 1).c = rho / 2 := by linear_combination (e2x - e2y) / 2
    refine ⟨hp, by linear_combination e0, by linear_combination e2, hb1, hb2, hc1, hc2, ?_, ?_⟩
    · linear_combination e2y - e2 - 4 * hc2
    · linear_combination e0x - e0 - 2 * hc1 - 4 * hc2
  · intro h mv hmv u
    obtain ⟨l, hl, rfl⟩ := hev mv hmv
    rw [q9_moment, hs]
    obtain ⟨hp, hA, hA2, hB1, hB2, hC1, hC2, hD1, hD2⟩ := h
    clear hev hs sp hmv
    fin_cases hl <;> simp [q9, Spec.quadratic, Spec.dot, Spec.sq, hydrodynamicValue]
    all_goals try simp only [hB1, hB2, hC1, hC2]
    · linear_combination hA + (u 0 ^ 2 + u 1 ^ 2) * hD2
    · ring
    · ring
    · linear_combination hA2 + (u 0 ^ 2 + u 1 ^ 2) * hD1
    · ring
    · linear_combination hA2 + (u 0 ^ 2 + u 1 ^ 2) * hD1
    · linear_combination -3 * u 0 * hp
    · linear_combination -u 1 * hp
    · linear_combination -u 0 * hp
    · linear_combination -3 * u 1 * hp

/-- **C76 (lattice weights).** The coefficients of the discrete equilibrium on D2Q9 with `c_s² = 1/3` satisfy the equations. -/
theorem C76_d2q9_weights [CharZero K] (rho : K) :
    ∀ x ∈ momentConstraints q9 (ansatz (fun s =>
      let w : K := if s = 0 then 4 / 9 else if s = 1 then 1 / 9 else 1 / 36
      ⟨w * rho, 3 * w * rho, 9 / 2 * w * rho, -(3 / 2 * w * rho)⟩) q9)
      (momentsUpTo3.map fun l => (exponents l, hydrodynamicValue rho (rho / 3) l)), x = 0 := by
  rw [C76_d2q9]
  refine ⟨rfl, ?_, ?_, ?_, ?_, ?_, ?_, ?_, ?_⟩ <;> norm_num <;> ring

/-- **C76 (not unique).** Other coefficients satisfy them, too: with no weight for the diagonal directions. -/
theorem C76_d2q9_other [CharZero K] (rho : K) :
    ∀ x ∈ momentConstraints q9 (ansatz (fun s =>
      if s = 0 then ⟨rho / 3, 0, 0, -(rho / 2)⟩
      else if s = 1 then ⟨rho / 6, rho / 3, rho / 2, -(rho / 4)⟩
      else ⟨0, rho / 12, rho / 8, 0⟩) q9)
      (momentsUpTo3.map fun l => (exponents l, hydrodynamicValue rho (rho / 3) l)), x = 0 := by
  rw [C76_d2q9]
  refine ⟨rfl, ?_, ?_, ?_, ?_, ?_, ?_, ?_, ?_⟩ <;> norm_num <;> ring

/-! ### Parameters, clashes, examples -/

/-- **C76 (degrees of freedom).** The parameters are the four of each speed that occurs, and `p`; each is listed once. -/
theorem C76_parameters (stencil : List (Vec D)) :
    (ansatzParameters stencil).Nodup ∧ none ∈ ansatzParameters stencil ∧
      ∀ l s, some (l, s) ∈ ansatzParameters stencil ↔ ∃ d ∈ stencil, speed d = s := by
  unfold ansatzParameters
  refine ⟨?_, by simp, ?_⟩
  · rw [List.nodup_append]
    refine ⟨List.nodup_dedup _, List.nodup_singleton _, ?_⟩
    intro a ha b hb
    rw [List.mem_dedup, List.mem_flatMap] at ha
    obtain ⟨d, -, hd⟩ := ha
    rw [List.mem_singleton] at hb
    subst hb
    rintro rfl
    simp at hd
  · intro l s
    rw [List.mem_append, List.mem_dedup, List.mem_flatMap]
    constructor
    · rintro (⟨d, hd, h⟩ | h)
      · refine ⟨d, hd, ?_⟩
        simp at h
        omega
      · simp at h
    · rintro ⟨d, hd, rfl⟩
      refine .inl ⟨d, hd, ?_⟩
      cases l <;> simp

/-- **C76 (D2V37).** The speed does not separate the directions of the predefined stencil D2V37: (1, 1) and (2, 0) have the same speed, so every
equilibrium with different weights for them is refused. The speeds separate the directions of D2V17. -/
theorem C76_d2v37 : ([1, 1] : List ℤ) ∈ Tables.D2V37_walberla ∧ [2, 0] ∈ Tables.D2V37_walberla ∧
    speed (![1, 1] : Vec 2) = speed (![2, 0] : Vec 2) ∧
    ∀ l ∈ Tables.D2V17_walberla, ∀ l' ∈ Tables.D2V17_walberla,
      speed (![l.getD 0 0, l.getD 1 0] : Vec 2) = speed (![l'.getD 0 0, l'.getD 1 0] : Vec 2) →
      (l.getD 0 0) ^ 2 + (l.getD 1 0) ^ 2 = (l'.getD 0 0) ^ 2 + (l'.getD 1 0) ^ 2 := by decide +kernel

example : matchAnsatz (K := ℚ) [(![1, 1] : Vec 2), ![2, 0]] [C (1 / 12), C (1 / 48)] = .error .valueError :=
  C76_speed_clash (by norm_num) _ _ (![1, 1], C (1 / 12)) (![2, 0], C (1 / 48)) (by simp) (by simp) (by decide) (by norm_num)

example : ∃ r, matchAnsatz (K := ℚ) q9 (ansatz (fun s => ⟨s, 1, 2, 3⟩) q9) = .ok r ∧ r.lookup (.B, 2) = some ⟨1, 0⟩ ∧
    r.lookup (.A, 1) = some ⟨1, 0⟩ := by
  obtain ⟨hg, r, hr⟩ := C76_round_trip (K := ℚ) (by norm_num : 0 < 2) q9 (fun s => ⟨s, 1, 2, 3⟩)
  refine ⟨r, hr, ?_, ?_⟩
  · have := C76_match_values (by norm_num) q9 _ _ hg r hr (![1, 1], generic ⟨2, 1, 2, 3⟩ ![1, 1]) (by
      rw [zip_ansatz]; exact List.mem_map.2 ⟨![1, 1], by decide, rfl⟩)
    exact (this.2.2 (by decide)).1
  · have := C76_match_values (by norm_num) q9 _ _ hg r hr (![1, 0], generic ⟨(1 : ℕ), 1, 2, 3⟩ ![1, 0]) (by
      rw [zip_ansatz]; exact List.mem_map.2 ⟨![1, 0], by decide, rfl⟩)
    have h1 : speed (![1, 0] : Vec 2) = 1 := by decide
    simpa [h1] using this.1

end QuadraticEq
end Lbm
