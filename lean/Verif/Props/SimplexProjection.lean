import Verif.SimplexProjection
import Mathlib.Tactic.Linarith
import Mathlib.Tactic.Ring
import Mathlib.Tactic.FieldSimp
import Mathlib.Tactic.Positivity
import Mathlib.Tactic.NormNum
import Mathlib.Tactic.FinCases
import Mathlib.Data.Rat.Defs
import Mathlib.Algebra.Order.Ring.Rat
import Mathlib.Algebra.BigOperators.Field

/-!
# C71: the simplex projection

What the projection is supposed to be is written down without any algorithm: the point of the simplex
`{q | q ≥ 0, ∑ q = 1}` nearest to the given concentrations.
-/

namespace Lbm
namespace Simplex

namespace Spec

variable {K : Type} [Field K] [LinearOrder K] {n : ℕ}

/-- The point lies in the simplex. -/
def InSimplex (p : Fin n → K) : Prop := (∀ a, 0 ≤ p a) ∧ ∑ a, p a = 1

/-- Squared Euclidean distance. -/
def dist2 (c p : Fin n → K) : K := ∑ a, (c a - p a) ^ 2

/-- `p` is the point of the simplex nearest to `c`. -/
def IsProjection (c p : Fin n → K) : Prop :=
  InSimplex p ∧ ∀ q, InSimplex q → dist2 c p ≤ dist2 c q

/-- No concentration lies in the open interval between `-th` and `th`, except zero. -/
def NotTiny (th : K) (c : Fin n → K) : Prop := ∀ a, -th < c a → c a < th → c a = 0

end Spec

variable {K : Type} [Field K] [LinearOrder K] [IsStrictOrderedRing K] {n : ℕ}

/-! ### Invariants -/

/-- What holds in every state of a cell, whatever the mask was at its begin. -/
structure Inv (st : State K n) (H : Finset (Fin n)) : Prop where
  zero : ∀ a ∈ H, st.c a = 0
  masked : ∀ a ∈ H, st.mask a = true
  left : st.left = (n : ℤ) - H.card

/-- What holds in addition in a cell starting with an empty mask. -/
structure Fresh (c₀ : Fin n → K) (st : State K n) (H : Finset (Fin n)) (τ : K) : Prop where
  only : ∀ a, st.mask a = true → a ∈ H
  nonneg : 0 ≤ τ
  shift : ∀ a, a ∉ H → st.c a = c₀ a - τ
  low : ∀ a ∈ H, c₀ a - τ ≤ 0

omit [IsStrictOrderedRing K] in
theorem markZero_inv (th : K) (st : State K n) (a : Fin n) (H : Finset (Fin n)) (ha : a ∉ H)
    (h : Inv st H) : ∃ H', H' ⊆ insert a H ∧ Inv (markZero th st a) H' := by
  unfold markZero
  split
  · refine ⟨insert a H, subset_rfl, ?_, ?_, ?_⟩
    · intro b hb
      by_cases hba : b = a
      · subst hba; simp
      · simp [Function.update_of_ne hba, h.zero b (Finset.mem_of_mem_insert_of_ne hb hba)]
    · intro b hb
      by_cases hba : b = a
      · subst hba; simp
      · simp [Function.update_of_ne hba, h.masked b (Finset.mem_of_mem_insert_of_ne hb hba)]
    · rw [Finset.card_insert_of_notMem ha]
      have := h.left
      push_cast
      omega
  · exact ⟨H, Finset.subset_insert _ _, h⟩

omit [IsStrictOrderedRing K] in
theorem markZero_foldl_inv (th : K) (l : List (Fin n)) (hl : l.Nodup) (st : State K n)
    (H : Finset (Fin n)) (hH : ∀ a ∈ l, a ∉ H) (h : Inv st H) :
    ∃ H', Inv (l.foldl (markZero th) st) H' := by
  induction l generalizing st H with
  | nil => exact ⟨H, h⟩
  | cons a l ih =>
    obtain ⟨H', hs, hi⟩ := markZero_inv th st a H (hH a (by simp)) h
    refine ih hl.of_cons _ H' ?_ hi
    intro b hb hbH
    have := hs hbH
    rw [Finset.mem_insert] at this
    rcases this with rfl | hb'
    · exact (List.nodup_cons.mp hl).1 hb
    · exact hH b (List.mem_cons_of_mem _ hb) hb'

omit [IsStrictOrderedRing K] in
theorem markZeros_inv (th : K) (c : Fin n → K) (mask : Fin n → Bool) :
    ∃ H, Inv (markZeros th { c := c, mask := mask, left := n }) H :=
  markZero_foldl_inv th _ (List.nodup_finRange n) _ ∅ (by simp) ⟨by simp, by simp, by simp⟩

omit [IsStrictOrderedRing K] in
theorem markZero_foldl_c (th : K) (l : List (Fin n)) (hl : l.Nodup) (st : State K n) (b : Fin n) :
    (l.foldl (markZero th) st).c b =
      if b ∈ l ∧ -th < st.c b ∧ st.c b < th then 0 else st.c b := by
  induction l generalizing st with
  | nil => simp
  | cons a l ih =>
    rw [List.foldl_cons, ih hl.of_cons]
    have hna := (List.nodup_cons.mp hl).1
    by_cases hba : b = a
    · subst hba
      simp only [hna, false_and, if_false, List.mem_cons, true_or, true_and]
      unfold markZero
      split <;> simp
    · have : (markZero th st a).c b = st.c b := by
        unfold markZero
        split
        · simp [Function.update_of_ne hba]
        · rfl
      simp [this, hba]

omit [IsStrictOrderedRing K] in
/-- The marking loop sets the tiny concentrations to zero. -/
theorem markZeros_c (th : K) (c : Fin n → K) (mask : Fin n → Bool) (b : Fin n) :
    (markZeros th { c := c, mask := mask, left := n }).c b =
      if -th < c b ∧ c b < th then 0 else c b := by
  unfold markZeros
  rw [markZero_foldl_c th _ (List.nodup_finRange n)]
  simp

omit [IsStrictOrderedRing K] in
theorem markZero_foldl_mask (th : K) (l : List (Fin n)) (hl : l.Nodup) (st : State K n) (b : Fin n) :
    (l.foldl (markZero th) st).mask b =
      if b ∈ l ∧ -th < st.c b ∧ st.c b < th then true else st.mask b := by
  induction l generalizing st with
  | nil => simp
  | cons a l ih =>
    rw [List.foldl_cons, ih hl.of_cons]
    have hna := (List.nodup_cons.mp hl).1
    by_cases hba : b = a
    · subst hba
      simp only [hna, false_and, if_false, List.mem_cons, true_or, true_and]
      unfold markZero
      split <;> simp
    · have h1 : (markZero th st a).c b = st.c b := by
        unfold markZero
        split
        · simp [Function.update_of_ne hba]
        · rfl
      have h2 : (markZero th st a).mask b = st.mask b := by
        unfold markZero
        split
        · simp [Function.update_of_ne hba]
        · rfl
      simp [h1, h2, hba]

omit [IsStrictOrderedRing K] in
theorem markZeros_mask (th : K) (c : Fin n → K) (mask : Fin n → Bool) (b : Fin n) :
    (markZeros th { c := c, mask := mask, left := n }).mask b =
      if -th < c b ∧ c b < th then true else mask b := by
  unfold markZeros
  rw [markZero_foldl_mask th _ (List.nodup_finRange n)]
  simp

omit [IsStrictOrderedRing K] in
theorem firstNegative_some {c : Fin n → K} {a : Fin n} (h : firstNegative c = some a) : c a < 0 := by
  have := List.find?_some h
  simpa using this

omit [IsStrictOrderedRing K] in
theorem firstNegative_none {c : Fin n → K} (h : firstNegative c = none) (a : Fin n) : 0 ≤ c a := by
  unfold firstNegative at h
  rw [List.find?_eq_none] at h
  have := h a (List.mem_finRange a)
  simpa using this

/-- The number of unmarked phases is at most the number of phases outside of `H`. -/
theorem unmarked_card_le {mask : Fin n → Bool} {H : Finset (Fin n)} (h : ∀ a ∈ H, mask a = true) :
    (Finset.univ.filter fun b => mask b = false).card ≤ n - H.card := by
  have : (Finset.univ.filter fun b => mask b = false) ⊆ Hᶜ := by
    intro b hb
    rw [Finset.mem_filter] at hb
    rw [Finset.mem_compl]
    intro hbH
    rw [h b hbH] at hb
    simp at hb
  refine (Finset.card_le_card this).trans ?_
  rw [Finset.card_compl, Fintype.card_fin]

theorem card_le_n (H : Finset (Fin n)) : H.card ≤ n := by
  have := Finset.card_le_univ H
  simpa using this

/-- One distribution step keeps the invariant, does not divide by zero and does not lower the sum. -/
theorem distribute_inv {st : State K n} {H : Finset (Fin n)} (h : Inv st H) {a : Fin n}
    (ha : st.c a < 0) :
    ∃ st', distribute st a = some st' ∧ Inv st' (insert a H) ∧ a ∉ H ∧
      ∑ b, st.c b ≤ ∑ b, st'.c b := by
  have haH : a ∉ H := fun hm => by rw [h.zero a hm] at ha; exact lt_irrefl _ ha
  set mask := Function.update st.mask a true with hmask
  have hmH : ∀ b ∈ insert a H, mask b = true := by
    intro b hb
    by_cases hba : b = a
    · subst hba; simp [hmask]
    · rw [hmask, Function.update_of_ne hba]
      exact h.masked b (Finset.mem_of_mem_insert_of_ne hb hba)
  have hcard : (insert a H).card = H.card + 1 := Finset.card_insert_of_notMem haH
  have hle := unmarked_card_le hmH
  have hn := card_le_n (insert a H)
  have hleft : st.left - 1 = ((n - (insert a H).card : ℕ) : ℤ) := by
    rw [h.left]; omega
  have hdiv : ¬ (st.left - 1 = 0 ∧ ∃ b, mask b = false) := by
    rintro ⟨h0, b, hb⟩
    have : 0 < (Finset.univ.filter fun b => mask b = false).card :=
      Finset.card_pos.mpr ⟨b, by simp [hb]⟩
    omega
  refine ⟨_, by simp only [distribute]; rw [if_neg hdiv], ⟨?_, ?_, ?_⟩, haH, ?_⟩
  · intro b hb
    by_cases hba : b = a
    · subst hba; simp
    · simp only [Function.update_of_ne hba]
      have hbm := hmH b hb
      rw [hmask, Function.update_of_ne hba] at hbm
      simp [hbm, h.zero b (Finset.mem_of_mem_insert_of_ne hb hba)]
  · exact hmH
  · simp only; omega
  · simp only
    have hself : mask a = true := hmH a (Finset.mem_insert_self _ _)
    have e1 : ∑ b, Function.update
        (fun b => if mask b = false then st.c b + st.c a / ((st.left - 1 : ℤ) : K) else st.c b) a 0 b
        = ∑ b, st.c b - st.c a
          + (Finset.univ.filter fun b => mask b = false).card * (st.c a / ((st.left - 1 : ℤ) : K)) := by
      have : ∀ b, Function.update
          (fun b => if mask b = false then st.c b + st.c a / ((st.left - 1 : ℤ) : K) else st.c b) a 0 b
          = st.c b - (if b = a then st.c a else 0)
            + (if mask b = false then st.c a / ((st.left - 1 : ℤ) : K) else 0) := by
        intro b
        by_cases hba : b = a
        · subst hba; simp [hself]
        · rw [Function.update_of_ne hba]
          split <;> simp [hba]
      rw [Finset.sum_congr rfl fun b _ => this b, Finset.sum_add_distrib, Finset.sum_sub_distrib,
        Finset.sum_ite_eq' Finset.univ a, if_pos (Finset.mem_univ a), ← Finset.sum_filter,
        Finset.sum_const, nsmul_eq_mul]
    rw [e1, hleft]
    generalize (Finset.univ.filter fun b => mask b = false).card = u at hle
    generalize n - (insert a H).card = m at hle
    rcases Nat.eq_zero_or_pos m with hm | hm
    · subst hm
      have : u = 0 := by omega
      subst this
      simp
      exact ha.le
    · have hmK : (0 : K) < m := by exact_mod_cast hm
      have huK : (u : K) ≤ m := by exact_mod_cast hle
      have : st.c a ≤ u * (st.c a / ((m : ℤ) : K)) := by
        push_cast
        rw [mul_div_assoc', le_div_iff₀ hmK]
        nlinarith
      linarith

/-- The loop ends without negative phases, whatever the mask was. -/
theorem distributeAll_inv (fuel : ℕ) (st : State K n) (H : Finset (Fin n)) (h : Inv st H)
    (hf : n ≤ fuel + H.card) :
    ∃ st', distributeAll fuel st = some st' ∧ (∀ a, 0 ≤ st'.c a) ∧ ∑ b, st.c b ≤ ∑ b, st'.c b := by
  induction fuel generalizing st H with
  | zero =>
    refine ⟨st, rfl, ?_, le_rfl⟩
    intro a
    have : H = Finset.univ := by
      apply Finset.eq_univ_of_card
      have := card_le_n H
      rw [Fintype.card_fin]; omega
    rw [h.zero a (by rw [this]; exact Finset.mem_univ a)]
  | succ fuel ih =>
    rw [distributeAll]
    cases hneg : firstNegative st.c with
    | none => exact ⟨st, rfl, firstNegative_none hneg, le_rfl⟩
    | some a =>
      obtain ⟨st₁, e1, hi, haH, hs⟩ := distribute_inv h (firstNegative_some hneg)
      have hcard : (insert a H).card = H.card + 1 := Finset.card_insert_of_notMem haH
      obtain ⟨st', e2, hnn, hs'⟩ := ih st₁ (insert a H) hi (by omega)
      refine ⟨st', ?_, hnn, hs.trans hs'⟩
      simp only [e1, Option.bind_some, e2]

/-- A larger bound on the number of restarts changes nothing. -/
theorem distributeAll_fuel (fuel extra : ℕ) (st : State K n) (H : Finset (Fin n)) (h : Inv st H)
    (hf : n ≤ fuel + H.card) : distributeAll (fuel + extra) st = distributeAll fuel st := by
  induction fuel generalizing st H with
  | zero =>
    have hz : ∀ a, st.c a = 0 := by
      intro a
      have : H = Finset.univ := by
        apply Finset.eq_univ_of_card
        have := card_le_n H
        rw [Fintype.card_fin]; omega
      rw [h.zero a (by rw [this]; exact Finset.mem_univ a)]
    have : firstNegative st.c = none := by
      unfold firstNegative
      rw [List.find?_eq_none]
      intro a _
      simp [hz a]
    cases extra with
    | zero => rfl
    | succ e => rw [Nat.zero_add, distributeAll, distributeAll]; simp [this]
  | succ fuel ih =>
    rw [show fuel + 1 + extra = (fuel + extra) + 1 by omega, distributeAll, distributeAll]
    cases hneg : firstNegative st.c with
    | none => rfl
    | some a =>
      obtain ⟨st₁, e1, hi, haH, -⟩ := distribute_inv h (firstNegative_some hneg)
      have hcard : (insert a H).card = H.card + 1 := Finset.card_insert_of_notMem haH
      simp only [e1, Option.bind_some]
      exact ih st₁ (insert a H) hi (by omega)

/-- **C71 (the loop ends).** `n` restarts of the `while` loop are enough for every cell and every mask it
may start with: with `n` or more rounds allowed the loop leaves the same state, and this state has no
negative phase. -/
theorem C71_loop_terminates (th : K) (mask : Fin n → Bool) (c : Fin n → K) (extra : ℕ) :
    ∃ st, distributeAll n (markZeros th { c := c, mask := mask, left := n }) = some st ∧
      distributeAll (n + extra) (markZeros th { c := c, mask := mask, left := n }) = some st ∧
      firstNegative st.c = none := by
  obtain ⟨H, h⟩ := markZeros_inv th c mask
  obtain ⟨st, e, hnn, -⟩ := distributeAll_inv n _ H h (by omega)
  refine ⟨st, e, ?_, ?_⟩
  · rw [distributeAll_fuel n extra _ H h (by omega), e]
  · unfold firstNegative
    rw [List.find?_eq_none]
    intro a _
    simpa using hnn a

/-- The sum after setting the tiny concentrations to zero is positive. -/
theorem markZeros_sum_pos {th : K} (hth : 0 ≤ th) {c : Fin n → K} (hs : (n : K) * th < ∑ a, c a)
    (mask : Fin n → Bool) :
    0 < ∑ a, (markZeros th { c := c, mask := mask, left := n }).c a := by
  have : ∑ a, c a ≤ ∑ a, ((markZeros th { c := c, mask := mask, left := n }).c a + th) := by
    apply Finset.sum_le_sum
    intro a _
    rw [markZeros_c]
    split
    · rename_i h; linarith [h.2]
    · linarith
  rw [Finset.sum_add_distrib, Finset.sum_const, Finset.card_univ, Fintype.card_fin, nsmul_eq_mul]
    at this
  linarith

theorem normalize_spec {c : Fin n → K} (hnn : ∀ a, 0 ≤ c a) (hs : 0 < ∑ a, c a) :
    ∃ c', normalize c = some c' ∧ Spec.InSimplex c' := by
  refine ⟨_, by simp only [normalize]; rw [if_neg hs.ne'], ?_, ?_⟩
  · intro a; exact div_nonneg (hnn a) hs.le
  · rw [← Finset.sum_div, div_self hs.ne']

theorem projectCell_simplex {th : K} (hth : 0 ≤ th) (mask : Fin n → Bool) {c : Fin n → K}
    (hs : (n : K) * th < ∑ a, c a) :
    ∃ r, projectCell th mask c = some r ∧ Spec.InSimplex r.1 := by
  obtain ⟨H, h⟩ := markZeros_inv th c mask
  obtain ⟨st, e, hnn, hle⟩ := distributeAll_inv n _ H h (by omega)
  obtain ⟨c', e', hsimp⟩ := normalize_spec hnn
    (lt_of_lt_of_le (markZeros_sum_pos hth hs mask) hle)
  exact ⟨(c', st.mask), by simp [projectCell, e, e'], hsimp⟩

theorem sweep_simplex {th : K} (hth : 0 ≤ th) (cells : List (Fin n → K)) (mask : Fin n → Bool)
    (hs : ∀ c ∈ cells, (n : K) * th < ∑ a, c a) :
    ∃ out, sweep th mask cells = some out ∧ out.length = cells.length ∧
      ∀ p ∈ out, Spec.InSimplex p := by
  induction cells generalizing mask with
  | nil => exact ⟨[], rfl, rfl, by simp⟩
  | cons c cs ih =>
    obtain ⟨r, er, hr⟩ := projectCell_simplex hth mask (hs c (by simp))
    obtain ⟨out, eo, hl, ho⟩ := ih r.2 fun c' hc' => hs c' (List.mem_cons_of_mem _ hc')
    refine ⟨r.1 :: out, by simp [sweep, er, eo], by simp [hl], ?_⟩
    intro p hp
    rw [List.mem_cons] at hp
    rcases hp with rfl | hp
    · exact hr
    · exact ho p hp

/-- **C71 (every cell ends in the simplex).** If the concentrations of every cell sum to more than
`n` times the threshold - to one, in the application - then nothing is divided by zero, and in the result
the concentrations of every cell are nonnegative and sum to one. -/
theorem C71_in_simplex {th : K} (hth : 0 ≤ th) (cells : List (Fin n → K))
    (hs : ∀ c ∈ cells, (n : K) * th < ∑ a, c a) :
    ∃ out, simplexProjection th cells = some out ∧ out.length = cells.length ∧
      ∀ p ∈ out, Spec.InSimplex p :=
  sweep_simplex hth cells _ hs

/-! ### The nearest point -/

/-- A point obtained by subtracting a constant and cutting off at zero is the nearest one. -/
theorem isProjection_of_shift {c p : Fin n → K} (τ : K) (hsum : ∑ a, p a = 1) (hnn : ∀ a, 0 ≤ p a)
    (h : ∀ a, p a = c a - τ ∨ (p a = 0 ∧ c a - τ ≤ 0)) : Spec.IsProjection c p := by
  refine ⟨⟨hnn, hsum⟩, ?_⟩
  rintro q ⟨hq, hqs⟩
  have h0 : ∑ a, (p a - q a) = 0 := by rw [Finset.sum_sub_distrib, hsum, hqs, sub_self]
  have key : ∀ a, (c a - p a) ^ 2 + 2 * τ * (p a - q a) ≤ (c a - q a) ^ 2 := by
    intro a
    rcases h a with h1 | ⟨h1, h2⟩
    · have : c a = p a + τ := by linarith
      rw [this]
      nlinarith [sq_nonneg (p a - q a)]
    · rw [h1]
      nlinarith [sq_nonneg (q a), mul_nonneg (hq a) (neg_nonneg.mpr h2)]
  have := Finset.sum_le_sum fun a (_ : a ∈ Finset.univ) => key a
  rw [Finset.sum_add_distrib, ← Finset.mul_sum, h0, mul_zero, add_zero] at this
  exact this

theorem distribute_fresh {c₀ : Fin n → K} {st st' : State K n} {H : Finset (Fin n)} {τ : K}
    (h : Inv st H) (hf : Fresh c₀ st H τ) {a : Fin n} (ha : st.c a < 0) (hs : 0 < ∑ b, st.c b)
    (e : distribute st a = some st') :
    (∃ τ', Fresh c₀ st' (insert a H) τ') ∧ ∑ b, st'.c b = ∑ b, st.c b := by
  obtain ⟨st₁, e1, hi, haH, -⟩ := distribute_inv h ha
  rw [e] at e1
  obtain rfl : st' = st₁ := by simpa using e1
  have hcard : (insert a H).card = H.card + 1 := Finset.card_insert_of_notMem haH
  have hn := card_le_n (insert a H)
  set m : ℕ := n - (insert a H).card with hm
  have hleft : st.left - 1 = (m : ℤ) := by rw [h.left]; omega
  simp only [distribute] at e
  split at e
  · simp at e
  rename_i hdiv
  simp only [Option.some.injEq] at e
  have hmaskval : ∀ b, Function.update st.mask a true b = false ↔ b ∉ insert a H := by
    intro b
    by_cases hba : b = a
    · subst hba; simp
    · rw [Function.update_of_ne hba, Finset.mem_insert, not_or]
      constructor
      · intro hb
        exact ⟨hba, fun hbH => by rw [h.masked b hbH] at hb; simp at hb⟩
      · rintro ⟨-, hb⟩
        by_contra hc
        exact hb (hf.only b (by simpa using hc))
  -- the number of unmarked phases is positive, as the sum is
  have hmpos : 0 < m := by
    by_contra h0
    have hall : insert a H = Finset.univ := by
      apply Finset.eq_univ_of_card
      rw [Fintype.card_fin]; omega
    have : ∑ b, st.c b = st.c a := by
      apply Finset.sum_eq_single a
      · intro b _ hba
        have hb : b ∈ insert a H := by rw [hall]; exact Finset.mem_univ b
        exact h.zero b (Finset.mem_of_mem_insert_of_ne hb hba)
      · simp
    rw [this] at hs
    exact lt_asymm hs ha
  have hmK : (0 : K) < m := by exact_mod_cast hmpos
  have hcval : ∀ b, st'.c b = if b ∈ insert a H then 0 else st.c b + st.c a / m := by
    intro b
    rw [← e]
    simp only
    by_cases hba : b = a
    · subst hba; simp
    · rw [Function.update_of_ne hba]
      by_cases hb : b ∈ insert a H
      · rw [if_neg (fun hc => (hmaskval b).mp hc hb), if_pos hb,
          h.zero b (Finset.mem_of_mem_insert_of_ne hb hba)]
      · rw [if_pos ((hmaskval b).mpr hb), if_neg hb, hleft]
        push_cast
        rfl
  refine ⟨⟨τ - st.c a / m, ?_, ?_, ?_, ?_⟩, ?_⟩
  · intro b hb
    rw [← e] at hb
    by_contra hc
    have := (hmaskval b).mpr hc
    simp only at hb
    rw [this] at hb
    simp at hb
  · have : st.c a / m ≤ 0 := div_nonpos_of_nonpos_of_nonneg ha.le hmK.le
    linarith [hf.nonneg]
  · intro b hb
    rw [hcval b, if_neg hb, hf.shift b fun hbH => hb (Finset.mem_insert_of_mem hbH)]
    ring
  · have hneg : st.c a / m ≤ 0 := div_nonpos_of_nonpos_of_nonneg ha.le hmK.le
    intro b hb
    rw [Finset.mem_insert] at hb
    rcases hb with rfl | hb
    · have h1 := hf.shift b haH
      linarith
    · have := hf.low b hb
      linarith
  · have hval : ∀ b, st'.c b = st.c b - (if b = a then st.c a else 0)
        + (if b ∈ (insert a H)ᶜ then st.c a / m else 0) := by
      intro b
      rw [hcval b]
      by_cases hba : b = a
      · subst hba; simp
      · by_cases hb : b ∈ insert a H
        · rw [if_pos hb, h.zero b (Finset.mem_of_mem_insert_of_ne hb hba), if_neg hba,
            if_neg (fun hc => Finset.mem_compl.mp hc hb)]
          simp
        · rw [if_neg hb, if_neg hba, if_pos (Finset.mem_compl.mpr hb)]
          ring
    rw [Finset.sum_congr rfl fun b _ => hval b, Finset.sum_add_distrib, Finset.sum_sub_distrib,
      Finset.sum_ite_eq' Finset.univ a, if_pos (Finset.mem_univ a), Finset.sum_ite_mem,
      Finset.univ_inter, Finset.sum_const, Finset.card_compl, Fintype.card_fin, ← hm, nsmul_eq_mul]
    field_simp
    ring

theorem distributeAll_fresh {c₀ : Fin n → K} (fuel : ℕ) (st st' : State K n) (H : Finset (Fin n))
    (τ : K) (h : Inv st H) (hf : Fresh c₀ st H τ) (hs : 0 < ∑ b, st.c b)
    (e : distributeAll fuel st = some st') :
    (∃ H' τ', Inv st' H' ∧ Fresh c₀ st' H' τ') ∧ ∑ b, st'.c b = ∑ b, st.c b := by
  induction fuel generalizing st H τ with
  | zero =>
    obtain rfl : st = st' := by simpa [distributeAll] using e
    exact ⟨⟨H, τ, h, hf⟩, rfl⟩
  | succ fuel ih =>
    rw [distributeAll] at e
    cases hneg : firstNegative st.c with
    | none =>
      rw [hneg] at e
      obtain rfl : st = st' := by simpa using e
      exact ⟨⟨H, τ, h, hf⟩, rfl⟩
    | some a =>
      rw [hneg] at e
      obtain ⟨st₁, e1, hi, haH, -⟩ := distribute_inv h (firstNegative_some hneg)
      obtain ⟨⟨τ', hf'⟩, hs'⟩ := distribute_fresh h hf (firstNegative_some hneg) hs e1
      simp only [e1, Option.bind_some] at e
      obtain ⟨r, hr⟩ := ih st₁ (insert a H) τ' hi hf' (by rw [hs']; exact hs) e
      exact ⟨r, by rw [hr, hs']⟩

omit [IsStrictOrderedRing K] in
theorem markZero_foldl_fresh (th : K) (l : List (Fin n)) (hl : l.Nodup) (st : State K n)
    (H : Finset (Fin n)) (hH : ∀ a ∈ l, a ∉ H) (h : Inv st H)
    (honly : ∀ a, st.mask a = true → a ∈ H) :
    ∃ H', Inv (l.foldl (markZero th) st) H' ∧
      ∀ a, (l.foldl (markZero th) st).mask a = true → a ∈ H' := by
  induction l generalizing st H with
  | nil => exact ⟨H, h, honly⟩
  | cons a l ih =>
    have haH := hH a (by simp)
    rw [List.foldl_cons]
    by_cases hz : -th < st.c a ∧ st.c a < th
    · have e : markZero th st a =
          ⟨Function.update st.c a 0, Function.update st.mask a true, st.left - 1⟩ := by
        simp only [markZero]; rw [if_pos hz]
      have hi : Inv (markZero th st a) (insert a H) := by
        rw [e]
        refine ⟨?_, ?_, ?_⟩
        · intro b hb
          by_cases hba : b = a
          · subst hba; simp
          · simp [Function.update_of_ne hba, h.zero b (Finset.mem_of_mem_insert_of_ne hb hba)]
        · intro b hb
          by_cases hba : b = a
          · subst hba; simp
          · simp [Function.update_of_ne hba, h.masked b (Finset.mem_of_mem_insert_of_ne hb hba)]
        · rw [Finset.card_insert_of_notMem haH]
          have := h.left
          push_cast
          omega
      refine ih hl.of_cons _ (insert a H) ?_ hi ?_
      · intro b hb hbH
        rw [Finset.mem_insert] at hbH
        rcases hbH with rfl | hb'
        · exact (List.nodup_cons.mp hl).1 hb
        · exact hH b (List.mem_cons_of_mem _ hb) hb'
      · intro b hb
        rw [e] at hb
        by_cases hba : b = a
        · subst hba; simp
        · simp only [Function.update_of_ne hba] at hb
          exact Finset.mem_insert_of_mem (honly b hb)
    · have e : markZero th st a = st := by simp only [markZero]; rw [if_neg hz]
      rw [e]
      exact ih hl.of_cons st H (fun b hb => hH b (List.mem_cons_of_mem _ hb)) h honly

omit [IsStrictOrderedRing K] in
theorem markZeros_eq_of_notTiny {th : K} {c : Fin n → K} (ht : Spec.NotTiny th c)
    (mask : Fin n → Bool) : (markZeros th { c := c, mask := mask, left := n }).c = c := by
  funext b
  rw [markZeros_c]
  split
  · rename_i h; rw [ht b h.1 h.2]
  · rfl

theorem projectCell_isProjection {th : K} {c : Fin n → K} (ht : Spec.NotTiny th c)
    (hs : ∑ a, c a = 1) :
    ∃ r, projectCell th (fun _ => false) c = some r ∧ Spec.IsProjection c r.1 := by
  obtain ⟨H, h, ho⟩ := markZero_foldl_fresh th _ (List.nodup_finRange n)
    { c := c, mask := fun _ => false, left := n } ∅ (by simp) ⟨by simp, by simp, by simp⟩ (by simp)
  change Inv (markZeros th { c := c, mask := fun _ => false, left := n }) H at h
  have hc := markZeros_eq_of_notTiny ht fun _ => false
  have hf : Fresh c (markZeros th { c := c, mask := fun _ => false, left := n }) H 0 := by
    refine ⟨ho, le_rfl, ?_, ?_⟩
    · intro a _; rw [hc, sub_zero]
    · intro a ha
      have := h.zero a ha
      rw [hc] at this
      rw [this, sub_zero]
  obtain ⟨st, e, hnn, -⟩ := distributeAll_inv n _ H h (by omega)
  have hsum : ∑ b, (markZeros th { c := c, mask := fun _ => false, left := n }).c b = 1 := by
    rw [hc, hs]
  obtain ⟨⟨H', τ', hi', hf'⟩, hs'⟩ := distributeAll_fresh n _ st H 0 h hf
    (by rw [hsum]; exact one_pos) e
  have h1 : ∑ a, st.c a = 1 := by rw [hs', hsum]
  refine ⟨(st.c, st.mask), ?_, isProjection_of_shift τ' h1 hnn ?_⟩
  · simp [projectCell, e, normalize, h1]
  · intro a
    by_cases ha : a ∈ H'
    · exact Or.inr ⟨hi'.zero a ha, hf'.low a ha⟩
    · exact Or.inl (hf'.shift a ha)

/-- **C71 (the nearest point, first cell).** In the first cell of the loop - and in an array with one
cell - the result is the Euclidean projection onto the simplex: of all points with nonnegative
concentrations summing to one it is the nearest to the given concentrations.  The given ones have to sum
to one, and none of them may be so small, without being zero, that it is rounded to zero. -/
theorem C71_first_cell_is_projection {th : K} {c : Fin n → K} (ht : Spec.NotTiny th c)
    (hs : ∑ a, c a = 1) (rest : List (Fin n → K)) (hr : ∀ c' ∈ rest, (n : K) * th < ∑ a, c' a)
    (hth : 0 ≤ th) :
    ∃ p out, simplexProjection th (c :: rest) = some (p :: out) ∧ Spec.IsProjection c p := by
  obtain ⟨r, e, hp⟩ := projectCell_isProjection ht hs
  obtain ⟨out, eo, -, -⟩ := sweep_simplex hth rest r.2 hr
  exact ⟨r.1, out, by simp [simplexProjection, sweep, e, eo], hp⟩

omit [IsStrictOrderedRing K] in
/-- A cell with concentrations above the threshold leaves the mask alone. -/
theorem projectCell_mask {th : K} (hth : 0 ≤ th) {c : Fin n → K} (hc : ∀ a, th ≤ c a)
    (mask : Fin n → Bool) {r} (e : projectCell th mask c = some r) : r.2 = mask := by
  have hm : (markZeros th { c := c, mask := mask, left := n }).mask = mask := by
    funext b
    rw [markZeros_mask, if_neg fun h => absurd h.2 (not_lt.mpr (hc b))]
  have hc' : firstNegative (markZeros th { c := c, mask := mask, left := n }).c = none := by
    unfold firstNegative
    rw [List.find?_eq_none]
    intro a _
    rw [markZeros_c, if_neg fun h => absurd h.2 (not_lt.mpr (hc a))]
    simpa using hth.trans (hc a)
  have hd : distributeAll n (markZeros th { c := c, mask := mask, left := n }) =
      some (markZeros th { c := c, mask := mask, left := n }) := by
    cases n with
    | zero => rfl
    | succ m => rw [distributeAll, hc']
  unfold projectCell at e
  rw [hd] at e
  simp only [Option.bind_some, Option.map_eq_some_iff] at e
  obtain ⟨c', -, rfl⟩ := e
  exact hm

/-- **C71 (the nearest point, partial).** The full claim is that *every* cell is replaced by its Euclidean
projection onto the simplex.  This is what is proved here only for the first cell in which some
concentration is negative or zero: all cells before it have only concentrations of at least the
threshold.  For later cells the claim is false, see `C71_mask_not_reset`. -/
theorem C71_every_cell_is_projection_partial {th : K} (hth : 0 < th) (hn : (n : K) * th < 1)
    (front : List (Fin n → K)) (hf : ∀ c ∈ front, (∀ a, th ≤ c a) ∧ ∑ a, c a = 1)
    {c : Fin n → K} (ht : Spec.NotTiny th c) (hs : ∑ a, c a = 1) :
    ∃ out, simplexProjection th (front ++ [c]) = some out ∧
      List.Forall₂ Spec.IsProjection (front ++ [c]) out := by
  unfold simplexProjection
  induction front with
  | nil =>
    obtain ⟨r, e, hp⟩ := projectCell_isProjection ht hs
    exact ⟨[r.1], by simp [sweep, e], .cons hp .nil⟩
  | cons c' front ih =>
    obtain ⟨hc', hs'⟩ := hf c' (by simp)
    obtain ⟨out, eo, ho⟩ := ih fun c hc => hf c (List.mem_cons_of_mem _ hc)
    obtain ⟨r, e, hp⟩ := projectCell_isProjection (th := th) (c := c')
      (fun a _ h => absurd h (not_lt.mpr (hc' a))) hs'
    have hm := projectCell_mask hth.le hc' _ e
    refine ⟨r.1 :: out, ?_, .cons hp ho⟩
    simp [sweep, e, hm, eo]

/-! ### The mask that is not reset -/

/-- The two cells of the counterexample. -/
def badCells : List (Fin 3 → ℚ) := [![0, 1/2, 1/2], ![1/2, -1/5, 7/10]]

/-- **C71 (the mask is not reset).** `handled_mask` keeps the phases marked in earlier cells.  Two cells with
concentrations summing to one, the first one already in the simplex: the second is replaced by
`(5/11, 0, 6/11)`, which is not the nearest point of the simplex; alone in its array the same cell is
replaced by the nearest point `(2/5, 0, 3/5)`. -/
theorem C71_mask_not_reset :
    simplexProjection (1/10^18) badCells = some [![0, 1/2, 1/2], ![5/11, 0, 6/11]] ∧
      ¬ Spec.IsProjection (K := ℚ) ![1/2, -1/5, 7/10] ![5/11, 0, 6/11] ∧
      simplexProjection (1/10^18) [(![1/2, -1/5, 7/10] : Fin 3 → ℚ)] = some [![2/5, 0, 3/5]] ∧
      Spec.IsProjection (K := ℚ) ![1/2, -1/5, 7/10] ![2/5, 0, 3/5] := by
  have h3 : Spec.IsProjection (K := ℚ) ![1/2, -1/5, 7/10] ![2/5, 0, 3/5] := by
    apply isProjection_of_shift (1/10)
    · simp [Fin.sum_univ_three]; norm_num
    · intro a; fin_cases a <;> norm_num
    · intro a; fin_cases a
      · left; simp; norm_num
      · right; simp; norm_num
      · left; simp; norm_num
  refine ⟨by decide +kernel, ?_, by decide +kernel, h3⟩
  intro h
  have := h.2 _ h3.1
  simp [Spec.dist2, Fin.sum_univ_three] at this
  norm_num at this

/-- What a cell becomes when all phases are marked at its begin. -/
theorem distributeAll_full (fuel : ℕ) (st : State K n) (H : Finset (Fin n)) (h : Inv st H)
    (hm : ∀ a, st.mask a = true) (hf : n ≤ fuel + H.card) :
    ∃ st', distributeAll fuel st = some st' ∧ (∀ a, st'.c a = max (st.c a) 0) := by
  induction fuel generalizing st H with
  | zero =>
    refine ⟨st, rfl, fun a => ?_⟩
    have : H = Finset.univ := by
      apply Finset.eq_univ_of_card
      have := card_le_n H
      rw [Fintype.card_fin]; omega
    rw [h.zero a (by rw [this]; exact Finset.mem_univ a), max_self]
  | succ fuel ih =>
    rw [distributeAll]
    cases hneg : firstNegative st.c with
    | none => exact ⟨st, rfl, fun a => (max_eq_left (firstNegative_none hneg a)).symm⟩
    | some a =>
      have ha := firstNegative_some hneg
      obtain ⟨st₁, e1, hi, haH, -⟩ := distribute_inv h ha
      have hcard : (insert a H).card = H.card + 1 := Finset.card_insert_of_notMem haH
      have hupd : ∀ b, Function.update st.mask a true b = true := by
        intro b
        by_cases hba : b = a
        · subst hba; simp
        · rw [Function.update_of_ne hba]; exact hm b
      have hst : st₁.c = Function.update st.c a 0 ∧ st₁.mask = Function.update st.mask a true := by
        simp only [distribute, hupd] at e1
        simp at e1
        rw [← e1]
        exact ⟨rfl, rfl⟩
      obtain ⟨st', e2, hv⟩ := ih st₁ (insert a H) hi (by rw [hst.2]; exact hupd) (by omega)
      refine ⟨st', by simp only [e1, Option.bind_some, e2], fun b => ?_⟩
      rw [hv b, hst.1]
      by_cases hba : b = a
      · subst hba; simp [ha.le]
      · rw [Function.update_of_ne hba]

/-- **C71 (what the later cells become).** Once every phase has been marked somewhere - two pure cells of
different phases are enough, see `C71_two_pure_cells` - the negative concentrations of all later cells are not distributed any more:
they are cut off, and the rest is rescaled to the sum one. -/
theorem C71_full_mask {th : K} {c : Fin n → K} (ht : Spec.NotTiny th c) (hs : 0 < ∑ a, c a) :
    ∃ m, projectCell th (fun _ => true) c =
      some (fun a => max (c a) 0 / ∑ b, max (c b) 0, m) := by
  obtain ⟨H, h⟩ := markZeros_inv th c fun _ => true
  have hc := markZeros_eq_of_notTiny ht fun _ => true
  have hm : ∀ a, (markZeros th { c := c, mask := fun _ => true, left := n }).mask a = true := by
    intro a; rw [markZeros_mask]; simp
  obtain ⟨st, e, hv⟩ := distributeAll_full n _ H h hm (by omega)
  rw [hc] at hv
  have hst : st.c = fun a => max (c a) 0 := funext hv
  have hpos : 0 < ∑ b, max (c b) 0 :=
    lt_of_lt_of_le hs (Finset.sum_le_sum fun a _ => le_max_left _ _)
  refine ⟨st.mask, ?_⟩
  simp [projectCell, e, normalize, hst, hpos.ne']

/-- A point of the simplex is not changed; its tiny phases are marked. -/
theorem projectCell_stay {th : K} {c : Fin n → K} (ht : Spec.NotTiny th c)
    (hc : Spec.InSimplex c) (mask : Fin n → Bool) :
    projectCell th mask c =
      some (c, fun b => if -th < c b ∧ c b < th then true else mask b) := by
  have he := markZeros_eq_of_notTiny ht mask
  have hneg : firstNegative (markZeros th { c := c, mask := mask, left := n }).c = none := by
    unfold firstNegative
    rw [List.find?_eq_none, he]
    intro a _
    simpa using hc.1 a
  have hd : distributeAll n (markZeros th { c := c, mask := mask, left := n }) =
      some (markZeros th { c := c, mask := mask, left := n }) := by
    cases n with
    | zero => rfl
    | succ m => rw [distributeAll, hneg]
  have hm : (markZeros th { c := c, mask := mask, left := n }).mask =
      fun b => if -th < c b ∧ c b < th then true else mask b := funext (markZeros_mask th c mask)
  simp only [projectCell, hd, Option.bind_some, he, normalize, hc.2, hm]; simp

/-- **C71 (points of the simplex stay).** A cell that lies in the simplex already is not changed, whatever
happened in the cells before. -/
theorem C71_simplex_points_stay {th : K} {c : Fin n → K} (ht : Spec.NotTiny th c)
    (hc : Spec.InSimplex c) (mask : Fin n → Bool) :
    ∃ m, projectCell th mask c = some (c, m) :=
  ⟨_, projectCell_stay ht hc mask⟩

/-- **C71 (two pure cells switch the distribution off).** If the first two cells consist of one phase each,
of two different ones, the third cell is not projected: its negative concentrations are cut off and the
rest is rescaled. -/
theorem C71_two_pure_cells {th : K} (hth : 0 < th) (h1 : th ≤ 1) {i j : Fin n} (hij : i ≠ j)
    {c : Fin n → K} (ht : Spec.NotTiny th c) (hs : 0 < ∑ a, c a) :
    simplexProjection th [Pi.single i 1, Pi.single j 1, c] =
      some [Pi.single i 1, Pi.single j 1, fun a => max (c a) 0 / ∑ b, max (c b) 0] := by
  have ht' : ∀ k : Fin n, Spec.NotTiny th (Pi.single k 1 : Fin n → K) := by
    intro k a _ h
    by_cases hak : a = k
    · subst hak; simp at h; exact absurd h (not_lt.mpr h1)
    · simp [hak]
  have hc' : ∀ k : Fin n, Spec.InSimplex (Pi.single k 1 : Fin n → K) := by
    intro k
    refine ⟨fun a => ?_, by simp⟩
    by_cases hak : a = k
    · subst hak; simp
    · simp [hak]
  have hmask : (fun b => if -th < (Pi.single j 1 : Fin n → K) b ∧ (Pi.single j 1 : Fin n → K) b < th
      then true else if -th < (Pi.single i 1 : Fin n → K) b ∧ (Pi.single i 1 : Fin n → K) b < th
      then true else false) = fun _ => true := by
    funext b
    by_cases hbj : b = j
    · have hbi : b ≠ i := fun h => hij (h.symm.trans hbj)
      simp [hbi, hth]
    · simp [hbj, hth]
  obtain ⟨m, hm⟩ := C71_full_mask ht hs
  simp only [simplexProjection, sweep, projectCell_stay (ht' i) (hc' i), Option.bind_some,
    projectCell_stay (ht' j) (hc' j), hmask, hm, Option.map_some]

/-! ### Examples -/

/-- Three cells, two of them with negative concentrations, all summing to one. -/
def exCells : List (Fin 3 → ℚ) := [![1/3, 1/3, 1/3], ![11/10, -1/5, 1/10], ![-1/2, 1, 1/2]]

example : ∃ out, simplexProjection (1/10^18 : ℚ) exCells = some out ∧ out.length = exCells.length ∧
    ∀ p ∈ out, Spec.InSimplex p :=
  C71_in_simplex (by norm_num) exCells (by
    intro c hc
    simp only [exCells, List.mem_cons, List.not_mem_nil, or_false] at hc
    rcases hc with rfl | rfl | rfl <;> simp [Fin.sum_univ_three] <;> norm_num)

example : ∃ p out, simplexProjection (1/10^18 : ℚ) [![11/10, -1/5, 1/10]] = some (p :: out) ∧
    Spec.IsProjection ![11/10, -1/5, 1/10] p :=
  C71_first_cell_is_projection (c := ![11/10, -1/5, 1/10])
    (by intro a; fin_cases a <;> simp <;> norm_num)
    (by simp [Fin.sum_univ_three]; norm_num) [] (by simp) (by norm_num)

example : ∃ out, simplexProjection (1/10^18 : ℚ) ([![1/3, 1/3, 1/3]] ++ [![11/10, -1/5, 1/10]])
      = some out ∧
    List.Forall₂ Spec.IsProjection ([![1/3, 1/3, 1/3]] ++ [![11/10, -1/5, 1/10]]) out :=
  C71_every_cell_is_projection_partial (c := ![11/10, -1/5, 1/10]) (by norm_num) (by norm_num) _
    (by
      intro c hc
      simp only [List.mem_cons, List.not_mem_nil, or_false] at hc
      subst hc
      refine ⟨fun a => ?_, by simp [Fin.sum_univ_three]; norm_num⟩
      fin_cases a <;> simp <;> norm_num)
    (by intro a; fin_cases a <;> simp <;> norm_num)
    (by simp [Fin.sum_univ_three]; norm_num)

example : ∃ m, projectCell (1/10^18 : ℚ) (fun _ => true) ![1/2, -1/5, 7/10] =
    some (fun a => max (![1/2, -1/5, 7/10] a) 0 / ∑ b, max (![1/2, -1/5, 7/10] b) 0, m) :=
  C71_full_mask (c := ![1/2, -1/5, 7/10]) (by intro a; fin_cases a <;> simp <;> norm_num)
    (by simp [Fin.sum_univ_three]; norm_num)

example : ∃ m, projectCell (1/10^18 : ℚ) ![true, false, true] ![1/2, 0, 1/2] =
    some (![1/2, 0, 1/2], m) :=
  C71_simplex_points_stay (c := ![1/2, 0, 1/2]) (by intro a; fin_cases a <;> simp <;> norm_num)
    ⟨by intro a; fin_cases a <;> simp, by simp [Fin.sum_univ_three]; norm_num⟩ _

example : simplexProjection (1/10^18 : ℚ) [Pi.single 0 1, Pi.single 1 1, ![1/2, -1/5, 7/10]] =
    some [Pi.single 0 1, Pi.single 1 1,
      fun a => max (![1/2, -1/5, 7/10] a) 0 / ∑ b, max (![1/2, -1/5, 7/10] b) 0] :=
  C71_two_pure_cells (by norm_num) (by norm_num) (by decide)
    (by intro a; fin_cases a <;> simp <;> norm_num) (by simp [Fin.sum_univ_three]; norm_num)

example : ∃ st, distributeAll 3 (markZeros (1/10^18 : ℚ)
      { c := ![11/10, -1/5, 1/10], mask := fun _ => false, left := 3 }) = some st ∧
    distributeAll (3 + 5) (markZeros (1/10^18 : ℚ)
      { c := ![11/10, -1/5, 1/10], mask := fun _ => false, left := 3 }) = some st ∧
    firstNegative st.c = none :=
  C71_loop_terminates _ _ _ _

end Simplex
end Lbm
