import Verif.FastBackward
import Mathlib.Algebra.CharZero.Defs
import Mathlib.Algebra.BigOperators.Ring.Finset
import Mathlib.Algebra.BigOperators.Fin
import Mathlib.LinearAlgebra.Matrix.NonsingularInverse
import Mathlib.Algebra.Module.BigOperators
import Mathlib.Tactic.Ring
import Mathlib.Tactic.IntervalCases
import Mathlib.Tactic.FieldSimp
import Mathlib.Tactic.LinearCombination
import Mathlib.Tactic.FinCases
import Mathlib.Tactic.Module
import Mathlib.Data.Matrix.Mul
import Mathlib.Data.Nat.Choose.Sum

/-!
# Property C75: the backward fast central moment transform computes the populations
-/

namespace Lbm
namespace FastBackward

open scoped BigOperators

variable {D : ℕ} {K V : Type} [Field K] [AddCommGroup V] [Module K V]

theorem val_add (u : Fin D → K) (m : V →ₗ[K] K) (a b : Poly D V) : val u m (a + b) = val u m a + val u m b := by
  unfold val
  rw [← Finset.sum_add_distrib]
  exact Finset.sum_congr rfl fun p _ => by rw [Pi.add_apply, map_add, mul_add]

theorem val_smul (u : Fin D → K) (m : V →ₗ[K] K) (t : K) (a : Poly D V) : val u m (t • a) = t * val u m a := by
  unfold val
  rw [Finset.mul_sum]
  exact Finset.sum_congr rfl fun p _ => by rw [Pi.smul_apply, map_smul, smul_eq_mul]; ring

theorem val_neg (u : Fin D → K) (m : V →ₗ[K] K) (a : Poly D V) : val u m (-a) = -val u m a := by
  have := val_smul u m (-1) a
  rw [neg_one_smul] at this
  rw [this]; ring

theorem val_sub (u : Fin D → K) (m : V →ₗ[K] K) (a b : Poly D V) : val u m (a - b) = val u m a - val u m b := by
  rw [sub_eq_add_neg, val_add, val_neg, sub_eq_add_neg]

theorem sum_update {M : Type} [AddCommMonoid M] (k : Fin D) (F : (Fin D → Fin 3) → M) :
    ∑ p, F p = ∑ j : Fin 3, ∑ p ∈ Finset.univ.filter (fun p : Fin D → Fin 3 => p k = 0), F (Function.update p k j) := by
  rw [Finset.sum_comm, ← Finset.sum_product']
  refine Finset.sum_nbij' (fun p => (Function.update p k 0, p k)) (fun x => Function.update x.1 k x.2) ?_ ?_ ?_ ?_ ?_
  · intro p _; simp
  · intro x _; simp
  · intro p _; simp
  · rintro ⟨p, j⟩ hp
    simp only [Finset.mem_product, Finset.mem_filter, Finset.mem_univ, true_and, and_true] at hp
    simp only [Function.update_idem, Function.update_self, Prod.mk.injEq, and_true]
    rw [← hp, Function.update_eq_self]
  · intro p _; simp

theorem prod_update (u : Fin D → K) (k : Fin D) (p : Fin D → Fin 3) (hp : p k = 0) (j : Fin 3) :
    ∏ l, u l ^ (Function.update p k j l).val = u k ^ j.val * ∏ l, u l ^ (p l).val := by
  rw [← Finset.mul_prod_erase Finset.univ _ (Finset.mem_univ k), ← Finset.mul_prod_erase Finset.univ (fun l => u l ^ (p l).val)
    (Finset.mem_univ k), Function.update_self, hp]
  simp only [Fin.val_zero, pow_zero, one_mul]
  congr 1
  refine Finset.prod_congr rfl fun l hl => ?_
  rw [Function.update_of_ne (Finset.ne_of_mem_erase hl)]

theorem val_coeffAt (u : Fin D → K) (m : V →ₗ[K] K) (k : Fin D) (j : Fin 3) (c : Poly D V) :
    u k ^ j.val * val u m (coeffAt k j c) = ∑ p ∈ Finset.univ.filter (fun p : Fin D → Fin 3 => p k = 0),
      (∏ l, u l ^ (Function.update p k j l).val) * m (c (Function.update p k j)) := by
  unfold val coeffAt
  rw [Finset.mul_sum, Finset.sum_filter]
  refine Finset.sum_congr rfl fun p _ => ?_
  by_cases hp : p k = 0
  · rw [if_pos hp, if_pos hp, prod_update u k p hp]; ring
  · rw [if_neg hp, if_neg hp, map_zero]; ring

/-- A polynomial is the sum of its coefficients times the powers of one component. -/
theorem val_axis (u : Fin D → K) (m : V →ₗ[K] K) (k : Fin D) (c : Poly D V) :
    val u m c = val u m (coeffAt k 0 c) + u k * val u m (coeffAt k 1 c) + u k ^ 2 * val u m (coeffAt k 2 c) := by
  have h0 := val_coeffAt u m k 0 c
  have h1 := val_coeffAt u m k 1 c
  have h2 := val_coeffAt u m k 2 c
  have h := sum_update k fun p => (∏ l, u l ^ (p l).val) * m (c p)
  rw [Fin.sum_univ_three, ← h0, ← h1, ← h2] at h
  unfold val at h ⊢
  rw [h]
  simp

/-- The three products are the polynomial again. -/
theorem val_grouped [CharZero K] (u : Fin D → K) (m : V →ₗ[K] K) (k : Fin D) (d : ℤ) (hd : d = -1 ∨ d = 0 ∨ d = 1)
    (c : Poly D V) :
    1 / commonFactor d * (factors d (u k) 0 * val u m (coeffSubexp K k d c 0) + factors d (u k) 1 * val u m (coeffSubexp K k d c 1) +
      factors d (u k) 2 * val u m (coeffSubexp K k d c 2)) = val u m c := by
  rw [val_axis u m k c]
  have h2 : (2 : K) ≠ 0 := two_ne_zero
  rcases hd with rfl | rfl | rfl <;>
    simp [coeffSubexp, grouped, factors, commonFactor, val_add, val_smul, val_neg, val_sub] <;> field_simp <;> ring

/-! ### Free of components, and cycles -/

/-- None of the components `k` with `r ≤ k` occurs. -/
def FreeFrom (r : ℕ) (c : Poly D V) : Prop := ∀ p, (∃ k : Fin D, r ≤ k.val ∧ p k ≠ 0) → c p = 0

theorem coeffAt_free {r : ℕ} (h : r < D) (j : Fin 3) (c : Poly D V) (hc : FreeFrom (r + 1) c) :
    FreeFrom r (coeffAt ⟨r, h⟩ j c) := by
  rintro p ⟨k, hk, hp⟩
  unfold coeffAt
  split_ifs with h0
  · refine hc _ ⟨k, ?_, ?_⟩
    · rcases Nat.lt_or_ge r k.val with h1 | h1
      · exact h1
      · exfalso
        have : k = ⟨r, h⟩ := Fin.ext (le_antisymm h1 hk)
        rw [this] at hp; exact hp h0
    · rw [Function.update_of_ne]
      · exact hp
      · rintro rfl; exact hp h0
  · rfl

theorem FreeFrom.add {r : ℕ} {a b : Poly D V} (ha : FreeFrom r a) (hb : FreeFrom r b) : FreeFrom r (a + b) :=
  fun p hp => by rw [Pi.add_apply, ha p hp, hb p hp, add_zero]

theorem FreeFrom.smul {r : ℕ} {a : Poly D V} (t : K) (ha : FreeFrom r a) : FreeFrom r (t • a) :=
  fun p hp => by rw [Pi.smul_apply, ha p hp, smul_zero]

theorem FreeFrom.neg {r : ℕ} {a : Poly D V} (ha : FreeFrom r a) : FreeFrom r (-a) :=
  fun p hp => by rw [Pi.neg_apply, ha p hp, neg_zero]

theorem FreeFrom.sub {r : ℕ} {a b : Poly D V} (ha : FreeFrom r a) (hb : FreeFrom r b) : FreeFrom r (a - b) := by
  rw [sub_eq_add_neg]; exact ha.add hb.neg

theorem coeffSubexp_free {r : ℕ} (h : r < D) (d : ℤ) (j : Fin 3) (c : Poly D V) (hc : FreeFrom (r + 1) c) :
    FreeFrom r (coeffSubexp K ⟨r, h⟩ d c j) := by
  have h0 := coeffAt_free h 0 c hc
  have h1 := coeffAt_free h 1 c hc
  have h2 := coeffAt_free h 2 c hc
  have hg : FreeFrom r (grouped K d (coeffAt ⟨r, h⟩ 0 c) (coeffAt ⟨r, h⟩ 1 c) (coeffAt ⟨r, h⟩ 2 c) j) := by
    unfold grouped
    split_ifs <;> fin_cases j
    · exact h0.add ((h1.add h2).smul _)
    · exact (h1.add h2).smul _
    · exact h2
    · exact h0.add h2
    · exact (h1.smul _).neg
    · exact h2.neg
    · exact h0.sub ((h1.sub h2).smul _)
    · exact (h1.sub h2).smul _
    · exact h2
  unfold coeffSubexp
  simp only
  split_ifs
  · exact (hg.smul _).smul _
  · exact hg.smul _

variable [DecidableEq V]

theorem hasVelocity_iff (c : Poly D V) : hasVelocity c = true ↔ ¬ FreeFrom 0 c := by
  unfold hasVelocity FreeFrom
  rw [decide_eq_true_iff]
  push Not
  constructor
  · rintro ⟨p, hp, hc⟩
    refine ⟨p, ?_, hc⟩
    by_contra hk
    push Not at hk
    exact hp (funext fun k => hk k (Nat.zero_le _))
  · rintro ⟨p, ⟨k, -, hk⟩, hc⟩
    exact ⟨p, fun h => hk (by rw [h]), hc⟩

theorem free_of_component (k : Fin D) (c : Poly D V) (h : ∀ p, p k ≠ 0 → c p = 0) :
    coeffAt k 0 c = c ∧ coeffAt k 1 c = 0 ∧ coeffAt k 2 c = 0 := by
  have hz : ∀ j : Fin 3, j ≠ 0 → coeffAt k j c = 0 := by
    intro j hj
    funext p
    unfold coeffAt
    split_ifs
    · exact h _ (by rwa [Function.update_self])
    · rfl
  refine ⟨?_, hz 1 (by decide), hz 2 (by decide)⟩
  funext p
  unfold coeffAt
  split_ifs with h0
  · rw [← h0, Function.update_eq_self]
  · exact (h p h0).symm

/-- A coefficient is not the expression it is a coefficient of, unless this has no velocities. -/
theorem coeffSubexp_ne [CharZero K] {r : ℕ} (h : r < D) (d : ℤ) (hd : d = -1 ∨ d = 0 ∨ d = 1) (j : Fin 3) (c : Poly D V)
    (hc : FreeFrom (r + 1) c) (hv : hasVelocity c = true) : coeffSubexp K ⟨r, h⟩ d c j ≠ c := by
  intro he
  have hf : FreeFrom r c := by
    have := coeffSubexp_free (K := K) h d j c hc
    rwa [he] at this
  obtain ⟨h0, h1, h2⟩ := free_of_component ⟨r, h⟩ c fun p hp => hf p ⟨⟨r, h⟩, le_rfl, hp⟩
  have hz : c = 0 := by
    have key : ∃ t : K, t ≠ 1 ∧ coeffSubexp K ⟨r, h⟩ d c j = t • c := by
      rcases hd with rfl | rfl | rfl <;> fin_cases j
      · exact ⟨2, by norm_num, by simp [coeffSubexp, grouped, factors, commonFactor, h0, h1, h2]⟩
      · exact ⟨0, by norm_num, by simp [coeffSubexp, grouped, commonFactor, h0, h1, h2]⟩
      · exact ⟨0, by norm_num, by simp [coeffSubexp, grouped, commonFactor, h0, h1, h2]⟩
      · exact ⟨-1, by norm_num, by simp [coeffSubexp, grouped, factors, commonFactor, h0, h1, h2]⟩
      · exact ⟨0, by norm_num, by simp [coeffSubexp, grouped, commonFactor, h0, h1, h2]⟩
      · exact ⟨0, by norm_num, by simp [coeffSubexp, grouped, commonFactor, h0, h1, h2]⟩
      · exact ⟨2, by norm_num, by simp [coeffSubexp, grouped, factors, commonFactor, h0, h1, h2]⟩
      · exact ⟨0, by norm_num, by simp [coeffSubexp, grouped, commonFactor, h0, h1, h2]⟩
      · exact ⟨0, by norm_num, by simp [coeffSubexp, grouped, commonFactor, h0, h1, h2]⟩
    obtain ⟨t, ht, hk⟩ := key
    rw [hk] at he
    have h3 : (t - 1) • c = 0 := by rw [sub_smul, one_smul, he, sub_self]
    have h4 : (t - 1)⁻¹ • ((t - 1) • c) = 0 := by rw [h3, smul_zero]
    rwa [smul_smul, inv_mul_cancel₀ (sub_ne_zero.2 ht), one_smul] at h4
  rw [hasVelocity_iff] at hv
  exact hv fun p _ => by rw [hz]; rfl

/-- In the recursion below an expression no coefficient is asked for that is just being split. -/
def NoCycle (K : Type) [Field K] [Module K V] (dir : Fin D → ℤ) : (r : ℕ) → r ≤ D → Poly D V → List (Poly D V) → Prop
  | 0, _, _, _ => True
  | r + 1, h, c, stack => hasVelocity c = true → ∀ j, coeffSubexp K ⟨r, h⟩ (dir ⟨r, h⟩) c j ∉ stack ∧
      NoCycle K dir r (Nat.le_of_succ_le h) (coeffSubexp K ⟨r, h⟩ (dir ⟨r, h⟩) c j)
        (coeffSubexp K ⟨r, h⟩ (dir ⟨r, h⟩) c j :: stack)

theorem noCycle_one (dir : Fin D → ℤ) (h : 1 ≤ D) (c : Poly D V) (hc : FreeFrom 1 c) (stack : List (Poly D V))
    (hs : ∀ s ∈ stack, hasVelocity s = true) : NoCycle K dir 1 h c stack := by
  intro _ j
  refine ⟨fun hm => ?_, trivial⟩
  have := hs _ hm
  rw [hasVelocity_iff] at this
  exact this (coeffSubexp_free h _ j c hc)

theorem noCycle_two [CharZero K] (dir : Fin D → ℤ) (hd : ∀ k, dir k = -1 ∨ dir k = 0 ∨ dir k = 1) (h : 2 ≤ D) (c : Poly D V)
    (hc : FreeFrom 2 c) (stack : List (Poly D V)) (hs : ∀ s ∈ stack, s = c) : NoCycle K dir 2 h c stack := by
  intro hv j
  constructor
  · intro hm
    exact coeffSubexp_ne h _ (hd _) j c hc hv (hs _ hm)
  · intro hv2
    refine noCycle_one dir _ _ (coeffSubexp_free h _ j c hc) _ ?_ hv2
    intro s hs'
    rcases List.mem_cons.1 hs' with rfl | h2
    · exact hv2
    · rw [hs _ h2]; exact hv

theorem noCycle_three [CharZero K] (dir : Fin D → ℤ) (hd : ∀ k, dir k = -1 ∨ dir k = 0 ∨ dir k = 1) (hD : D ≤ 3)
    (c : Poly D V) : NoCycle K dir D le_rfl c [] := by
  have hc : FreeFrom D c := fun p ⟨k, hk, _⟩ => absurd k.isLt (not_lt.2 hk)
  match D, dir, hd, hD, c, hc with
  | 0, _, _, _, _, _ => trivial
  | 1, dir, _, _, c, hc => exact noCycle_one dir _ c hc [] (by simp)
  | 2, dir, hd, _, c, hc => exact noCycle_two dir hd _ c hc [] (by simp)
  | 3, dir, hd, _, c, hc =>
    intro _ j
    refine ⟨by simp, ?_⟩
    exact noCycle_two dir hd _ _ (coeffSubexp_free (by norm_num) _ j c hc) _ (by simp)

/-! ### The invariant -/

section inv
variable (u : Fin D → K) (m : V →ₗ[K] K)

/-- Known coefficients have distinct symbols; those that are not being split have their value. -/
structure Inv (st : State D V) (stack : List (Poly D V)) : Prop where
  known : ∀ c s, (c, s) ∈ st.known → s < st.next ∧ (c ∈ stack ∨ exec u m st.subs s = some (val u m c))
  inj : ∀ c c' s, (c, s) ∈ st.known → (c', s) ∈ st.known → c = c'
  uniq : ∀ c s s', (c, s) ∈ st.known → (c, s') ∈ st.known → s = s'
  env : ∀ s v, exec u m st.subs s = some v → ∃ c, (c, s) ∈ st.known ∧ v = val u m c

/-- What is assigned stays. -/
structure Ext (st st' : State D V) : Prop where
  known : ∀ e ∈ st.known, e ∈ st'.known
  env : ∀ s v, exec u m st.subs s = some v → exec u m st'.subs s = some v

theorem Ext.refl (st : State D V) : Ext u m st st := ⟨fun _ h => h, fun _ _ h => h⟩

variable {u m}

theorem Ext.trans {a b c : State D V} (h : Ext u m a b) (h' : Ext u m b c) : Ext u m a c :=
  ⟨fun e he => h'.known e (h.known e he), fun s v he => h'.env s v (h.env s v he)⟩

theorem exec_snoc (subs : List (ℕ × Rhs D V)) (a : ℕ × Rhs D V) :
    exec u m (subs ++ [a]) = Function.update (exec u m subs) a.1 (evalRhs u m (exec u m subs) a.2) := by
  unfold exec; rw [List.foldl_append]; rfl

theorem evalRhs_mono {env env' : ℕ → Option K} (h : ∀ s v, env s = some v → env' s = some v) (e : Rhs D V) (v : K)
    (he : evalRhs u m env e = some v) : evalRhs u m env' e = some v := by
  cases e with
  | poly c => exact he
  | grouped k d s =>
    unfold evalRhs at he ⊢
    simp only [Option.bind_eq_bind, Option.bind_eq_some_iff] at he ⊢
    obtain ⟨a, ha, b, hb, c, hc, h0⟩ := he
    exact ⟨a, h _ _ ha, b, h _ _ hb, c, h _ _ hc, h0⟩

/-- What is to be shown of the recursion. -/
def Splits (u : Fin D → K) (m : V →ₗ[K] K) (f : Poly D V → State D V → Except PyErr (Rhs D V × State D V)) (c : Poly D V)
    (stack : List (Poly D V)) : Prop :=
  ∀ st, Inv u m st stack → ∃ e st', f c st = .ok (e, st') ∧ Inv u m st' stack ∧ Ext u m st st' ∧
    evalRhs u m (exec u m st'.subs) e = some (val u m c)

theorem request_spec {f : Poly D V → State D V → Except PyErr (Rhs D V × State D V)} {c : Poly D V}
    {stack : List (Poly D V)} (hc : c ∉ stack) (hf : Splits u m f c (c :: stack)) (st : State D V) (hi : Inv u m st stack) :
    ∃ s st', request f c st = .ok (s, st') ∧ Inv u m st' stack ∧ Ext u m st st' ∧
      exec u m st'.subs s = some (val u m c) := by
  unfold request
  rcases hk : st.known.find? (fun e => decide (e.1 = c)) with _ | e
  · have hnew : ∀ s, (c, s) ∉ st.known := by
      intro s hs
      have := List.find?_eq_none.1 hk _ hs
      simp at this
    set st1 : State D V := { st with next := st.next + 1, known := st.known ++ [(c, st.next)] } with h1
    have hi1 : Inv u m st1 (c :: stack) := by
      refine ⟨?_, ?_, ?_, ?_⟩
      · intro c' s hs
        rcases List.mem_append.1 hs with hs | hs
        · obtain ⟨h2, h3⟩ := hi.known c' s hs
          exact ⟨Nat.lt_succ_of_lt h2, h3.imp (List.mem_cons_of_mem _) id⟩
        · rw [List.mem_singleton] at hs
          cases hs
          exact ⟨Nat.lt_succ_self _, .inl List.mem_cons_self⟩
      · intro c1 c2 s hs1 hs2
        rcases List.mem_append.1 hs1 with hs1 | hs1 <;> rcases List.mem_append.1 hs2 with hs2 | hs2
        · exact hi.inj _ _ _ hs1 hs2
        · rw [List.mem_singleton] at hs2
          cases hs2
          exact absurd (hi.known _ _ hs1).1 (lt_irrefl _)
        · rw [List.mem_singleton] at hs1
          cases hs1
          exact absurd (hi.known _ _ hs2).1 (lt_irrefl _)
        · rw [List.mem_singleton] at hs1 hs2
          cases hs1; cases hs2; rfl
      · intro c1 s s' hs1 hs2
        rcases List.mem_append.1 hs1 with hs1 | hs1 <;> rcases List.mem_append.1 hs2 with hs2 | hs2
        · exact hi.uniq _ _ _ hs1 hs2
        · rw [List.mem_singleton] at hs2
          cases hs2
          exact absurd hs1 (hnew _)
        · rw [List.mem_singleton] at hs1
          cases hs1
          exact absurd hs2 (hnew _)
        · rw [List.mem_singleton] at hs1 hs2
          cases hs1; cases hs2; rfl
      · intro s v hs
        obtain ⟨c', h2, h3⟩ := hi.env s v hs
        exact ⟨c', List.mem_append_left _ h2, h3⟩
    obtain ⟨e, st2, he, hi2, hx2, hv2⟩ := hf st1 hi1
    have hmem : (c, st.next) ∈ st2.known := hx2.known _ (List.mem_append_right _ (List.mem_singleton.2 rfl))
    have hkeep : ∀ s v, exec u m st2.subs s = some v → exec u m (st2.subs ++ [(st.next, e)]) s = some v := by
      intro s v hs
      rw [exec_snoc]
      by_cases hs' : s = st.next
      · subst hs'
        rw [Function.update_self, hv2]
        obtain ⟨c', h3, h4⟩ := hi2.env _ _ hs
        rw [h4, hi2.inj _ _ _ h3 hmem]
      · rw [Function.update_of_ne hs']; exact hs
    have hself : exec u m (st2.subs ++ [(st.next, e)]) st.next = some (val u m c) := by
      rw [exec_snoc, Function.update_self, hv2]
    refine ⟨st.next, { st2 with subs := st2.subs ++ [(st.next, e)] }, ?_, ⟨?_, ?_, ?_, ?_⟩, ⟨?_, ?_⟩, hself⟩
    · rw [hk]
      simp only [← h1]
      rw [he]
      rfl
    · intro c' s hs
      obtain ⟨h2, h3⟩ := hi2.known c' s hs
      refine ⟨h2, ?_⟩
      rcases h3 with h3 | h3
      · rcases List.mem_cons.1 h3 with rfl | h3
        · rw [hi2.uniq _ _ _ hs hmem]; exact .inr hself
        · exact .inl h3
      · exact .inr (hkeep _ _ h3)
    · exact hi2.inj
    · exact hi2.uniq
    · intro s v hs
      simp only at hs
      rw [exec_snoc] at hs
      by_cases hs' : s = st.next
      · subst hs'
        rw [Function.update_self, hv2] at hs
        exact ⟨c, hmem, (Option.some.inj hs).symm⟩
      · rw [Function.update_of_ne hs'] at hs
        exact hi2.env s v hs
    · intro e' he'
      exact hx2.known _ (List.mem_append_left _ he')
    · intro s v hs
      exact hkeep s v (hx2.env s v hs)
  · have he := List.find?_some hk
    have hm := List.mem_of_find?_eq_some hk
    simp only [decide_eq_true_eq] at he
    refine ⟨e.2, st, by rw [hk], hi, Ext.refl u m st, ?_⟩
    have hm' : (c, e.2) ∈ st.known := by rw [← he]; exact hm
    rcases (hi.known c e.2 hm').2 with h | h
    · exact absurd h hc
    · exact h


theorem split_spec [CharZero K] (dir : Fin D → ℤ) (hd : ∀ k, dir k = -1 ∨ dir k = 0 ∨ dir k = 1) :
    ∀ (r : ℕ) (h : r ≤ D) (c : Poly D V) (stack : List (Poly D V)), FreeFrom r c → NoCycle K dir r h c stack →
      Splits u m (split K dir r h) c stack
  | 0, _, c, stack, hc, _ => by
    intro st hi
    have hv : ¬ hasVelocity c = true := by rw [hasVelocity_iff]; exact not_not.2 hc
    exact ⟨.poly c, st, by unfold split; rw [if_neg hv], hi, Ext.refl u m st, rfl⟩
  | r + 1, h, c, stack, hc, hn => by
    intro st hi
    by_cases hv : hasVelocity c = true
    · have hn := hn hv
      have hrec : ∀ j, Splits u m (split K dir r (Nat.le_of_succ_le h)) (coeffSubexp K ⟨r, h⟩ (dir ⟨r, h⟩) c j)
          (coeffSubexp K ⟨r, h⟩ (dir ⟨r, h⟩) c j :: stack) := fun j =>
        split_spec dir hd r _ _ _ (coeffSubexp_free h _ j c hc) (hn j).2
      obtain ⟨s0, st0, e0, i0, x0, v0⟩ := request_spec (hn 0).1 (hrec 0) st hi
      obtain ⟨s1, st1, e1, i1, x1, v1⟩ := request_spec (hn 1).1 (hrec 1) st0 i0
      obtain ⟨s2, st2, e2, i2, x2, v2⟩ := request_spec (hn 2).1 (hrec 2) st1 i1
      refine ⟨.grouped ⟨r, h⟩ (dir ⟨r, h⟩) ![s0, s1, s2], st2, ?_, i2, x0.trans (x1.trans x2), ?_⟩
      · unfold split
        rw [if_pos hv]
        simp only
        rw [if_pos (hd _), e0]
        simp only [bind, Except.bind]
        rw [e1]
        simp only
        rw [e2]
      · unfold evalRhs
        have a0 := (x1.trans x2).env _ _ v0
        have a1 := x2.env _ _ v1
        simp only [Matrix.cons_val_zero, Matrix.cons_val_one, Matrix.cons_val, a0, a1, v2, Option.bind_eq_bind, Option.bind_some]
        rw [val_grouped u m ⟨r, h⟩ _ (hd _) c]
    · exact ⟨.poly c, st, by unfold split; rw [if_neg hv], hi, Ext.refl u m st, rfl⟩

theorem splitAll_spec [CharZero K] (hD : D ≤ 3) : ∀ (l : List (Poly D V × (Fin D → ℤ))),
    (∀ e ∈ l, ∀ k, e.2 k = -1 ∨ e.2 k = 0 ∨ e.2 k = 1) → ∀ st : State D V, Inv u m st [] →
      ∃ rhs st', splitAll K l st = .ok (rhs, st') ∧ Inv u m st' [] ∧ Ext u m st st' ∧
        rhs.map (evalRhs u m (exec u m st'.subs)) = l.map fun e => some (val u m e.1)
  | [], _, st, hi => ⟨[], st, rfl, hi, Ext.refl u m st, rfl⟩
  | e :: l, hl, st, hi => by
    obtain ⟨a, st1, h1, i1, x1, v1⟩ := split_spec e.2 (hl e List.mem_cons_self) D le_rfl e.1 []
      (fun p ⟨k, hk, _⟩ => absurd k.isLt (not_lt.2 hk)) (noCycle_three e.2 (hl e List.mem_cons_self) hD e.1) st hi
    obtain ⟨b, st2, h2, i2, x2, v2⟩ := splitAll_spec hD l (fun e he => hl e (List.mem_cons_of_mem _ he)) st1 i1
    refine ⟨a :: b, st2, ?_, i2, x1.trans x2, ?_⟩
    · unfold splitAll
      rw [h1]
      simp only [bind, Except.bind]
      rw [h2]
    · rw [List.map_cons, List.map_cons, v2, evalRhs_mono x2.env a _ v1]

theorem inv_empty (n : ℕ) : Inv u m (⟨n, [], []⟩ : State D V) [] :=
  ⟨fun _ _ h => absurd h List.not_mem_nil, fun _ _ _ h => absurd h List.not_mem_nil, fun _ _ _ h => absurd h List.not_mem_nil,
    fun _ _ h => by cases (show none = some _ from h)⟩

end inv

/-- **C75 (values).** In one, two and three dimensions with direction components -1, 0, 1: splitting succeeds, and for all velocities and
all values of the moments, assigning the subexpressions in the order of the list and evaluating the split equations gives the
values of the raw equations; in particular no symbol is used before it is assigned. -/
theorem C75_values [CharZero K] (hD : D ≤ 3) (l : List (Poly D V × (Fin D → ℤ)))
    (hl : ∀ e ∈ l, ∀ k, e.2 k = -1 ∨ e.2 k = 0 ∨ e.2 k = 1) (n : ℕ) :
    ∃ rhs st, splitAll K l ⟨n, [], []⟩ = .ok (rhs, st) ∧ rhs.length = l.length ∧ ∀ (u : Fin D → K) (m : V →ₗ[K] K),
      rhs.map (evalRhs u m (exec u m st.subs)) = l.map fun e => some (val u m e.1) := by
  obtain ⟨rhs, st, h, -, -, h2⟩ := splitAll_spec (u := fun _ => 0) (m := (0 : V →ₗ[K] K)) hD l hl ⟨n, [], []⟩ (inv_empty n)
  refine ⟨rhs, st, h, ?_, ?_⟩
  · have := congrArg List.length h2
    rwa [List.length_map, List.length_map] at this
  · intro u m
    obtain ⟨rhs', st', h', -, -, h2'⟩ := splitAll_spec (u := u) (m := m) hD l hl ⟨n, [], []⟩ (inv_empty n)
    rw [h] at h'
    cases h'
    exact h2'

/-! ### The raw equations -/

section raw
variable {Q : ℕ}

/-- Moments with these values. -/
def momentValues (κ : Fin Q → K) : (Fin Q → K) →ₗ[K] K where
  toFun x := ∑ j, x j * κ j
  map_add' x y := by rw [← Finset.sum_add_distrib]; exact Finset.sum_congr rfl fun j _ => by rw [Pi.add_apply]; ring
  map_smul' t x := by
    rw [RingHom.id_apply, smul_eq_mul, Finset.mul_sum]
    exact Finset.sum_congr rfl fun j _ => by rw [Pi.smul_apply, smul_eq_mul]; ring

/-- The central moment of populations with the exponents `e`, about `u`. -/
def Spec.centralMoment (c : Fin Q → Fin D → K) (u : Fin D → K) (f : Fin Q → K) (e : Fin D → ℕ) : K :=
  ∑ q, f q * ∏ k, (c q k - u k) ^ e k

theorem binomial (c u : K) (n : ℕ) (hn : n ≤ 2) :
    ∑ p : Fin 3, (if p.val ≤ n then (n.choose (n - p.val) : K) * u ^ p.val * (c - u) ^ (n - p.val) else 0) = c ^ n := by
  rw [Fin.sum_univ_three]
  interval_cases n <;> simp <;> ring

theorem binomials (c u : Fin D → K) (e : Fin D → ℕ) (he : ∀ k, e k ≤ 2) :
    ∑ p : Fin D → Fin 3, (if ∀ k, (p k).val ≤ e k then
      ∏ k, (((e k).choose (e k - (p k).val) : K) * u k ^ (p k).val * (c k - u k) ^ (e k - (p k).val)) else 0) =
      ∏ k, c k ^ e k := by
  have h1 : ∏ k, c k ^ e k = ∏ k, ∑ p : Fin 3, (if p.val ≤ e k then
      ((e k).choose (e k - p.val) : K) * u k ^ p.val * (c k - u k) ^ (e k - p.val) else 0) :=
    Finset.prod_congr rfl fun k _ => (binomial (c k) (u k) (e k) (he k)).symm
  rw [h1, Finset.prod_univ_sum, Fintype.piFinset_univ]
  refine Finset.sum_congr rfl fun p _ => ?_
  rw [Finset.prod_ite_zero]
  simp

/-- The raw moments from the central moments. -/
theorem shift_back (e : Fin Q → Fin D → ℕ) (hinj : Function.Injective e) (he : ∀ j k, e j k ≤ 2)
    (hdown : ∀ i (g : Fin D → ℕ), (∀ k, g k ≤ e i k) → ∃ j, e j = g) (c : Fin D → K) (u : Fin D → K) (i : Fin Q) :
    ∑ p : Fin D → Fin 3, ∑ j, (if ∀ k, e i k = e j k + (p k).val then
      (∏ k, ((e i k).choose (e j k) : K)) * (∏ k, u k ^ (p k).val) * ∏ k, (c k - u k) ^ e j k else 0) = ∏ k, c k ^ e i k := by
  rw [← binomials c u (e i) (he i)]
  refine Finset.sum_congr rfl fun p _ => ?_
  split_ifs with hp
  · obtain ⟨j, hj⟩ := hdown i (fun k => e i k - (p k).val) fun k => Nat.sub_le _ _
    rw [Finset.sum_eq_single j]
    · rw [if_pos]
      · rw [← Finset.prod_mul_distrib, ← Finset.prod_mul_distrib, hj]
      · intro k
        rw [hj]
        have := hp k
        simp only
        omega
    · intro j' _ hne
      rw [if_neg]
      intro h
      refine hne (hinj ?_)
      rw [hj]
      funext k
      have := h k
      omega
    · intro h; exact absurd (Finset.mem_univ _) h
  · refine Finset.sum_eq_zero fun j _ => if_neg fun h => hp fun k => ?_
    have := h k
    omega

/-- The matrix of the raw equations. -/
theorem val_rawEquation (e : Fin Q → Fin D → ℕ) (minv : Fin Q → K) (u : Fin D → K) (κ : Fin Q → K) :
    val u (momentValues κ) (rawEquation e minv) = ∑ i, minv i * ∑ p : Fin D → Fin 3, ∑ j,
      (if ∀ k, e i k = e j k + (p k).val then (∏ k, ((e i k).choose (e j k) : K)) * (∏ k, u k ^ (p k).val) * κ j else 0) := by
  unfold val momentValues rawEquation
  simp only [LinearMap.coe_mk, AddHom.coe_mk, Finset.mul_sum, Finset.sum_mul]
  have h3 : ∀ (a : (Fin D → Fin 3) → Fin Q → Fin Q → K), ∑ p, ∑ j, ∑ i, a p j i = ∑ i, ∑ p, ∑ j, a p j i := by
    intro a
    rw [Finset.sum_comm (s := (Finset.univ : Finset (Fin Q)))]
    exact Finset.sum_congr rfl fun p _ => Finset.sum_comm
  rw [h3]
  refine Finset.sum_congr rfl fun i _ => Finset.sum_congr rfl fun p _ => Finset.sum_congr rfl fun j _ => ?_
  split_ifs
  · ring
  · ring

/-- **C75 (inverse).** The exponents are distinct, at most two and contain every smaller exponent; `minv` is the inverse of the raw
moment matrix.  Then the raw equations give back the populations, whose central moments the moments are, for all velocities. -/
theorem C75_raw_inverse (c : Fin Q → Fin D → K) (e : Fin Q → Fin D → ℕ) (hinj : Function.Injective e) (he : ∀ j k, e j k ≤ 2)
    (hdown : ∀ i (g : Fin D → ℕ), (∀ k, g k ≤ e i k) → ∃ j, e j = g) (minv : Fin Q → Fin Q → K)
    (hm : ∀ q q', ∑ i, minv q i * ∏ k, c q' k ^ e i k = if q' = q then 1 else 0) (u : Fin D → K) (f : Fin Q → K) (q : Fin Q) :
    val u (momentValues fun j => Spec.centralMoment c u f (e j)) (rawEquation e (minv q)) = f q := by
  rw [val_rawEquation]
  have h : ∀ i, ∑ p : Fin D → Fin 3, ∑ j, (if ∀ k, e i k = e j k + (p k).val then
      (∏ k, ((e i k).choose (e j k) : K)) * (∏ k, u k ^ (p k).val) * Spec.centralMoment c u f (e j) else 0) =
      ∑ q', f q' * ∏ k, c q' k ^ e i k := by
    intro i
    have h2 : ∀ q', f q' * ∏ k, c q' k ^ e i k = ∑ p : Fin D → Fin 3, ∑ j, f q' * (if ∀ k, e i k = e j k + (p k).val then
      (∏ k, ((e i k).choose (e j k) : K)) * (∏ k, u k ^ (p k).val) * ∏ k, (c q' k - u k) ^ e j k else 0) := by
      intro q'
      rw [← shift_back e hinj he hdown (c q') u i, Finset.mul_sum]
      exact Finset.sum_congr rfl fun p _ => Finset.mul_sum _ _ _
    simp only [h2]
    rw [Finset.sum_comm (s := (Finset.univ : Finset (Fin Q))) (t := (Finset.univ : Finset (Fin D → Fin 3)))]
    refine Finset.sum_congr rfl fun p _ => ?_
    rw [Finset.sum_comm]
    refine Finset.sum_congr rfl fun j _ => ?_
    split_ifs
    · unfold Spec.centralMoment
      rw [Finset.mul_sum]
      exact Finset.sum_congr rfl fun q' _ => by ring
    · simp
  simp only [h, Finset.mul_sum]
  rw [Finset.sum_comm]
  have h4 : ∀ q', ∑ i, minv q i * (f q' * ∏ k, c q' k ^ e i k) = f q' * if q' = q then 1 else 0 := by
    intro q'
    rw [← hm q q', Finset.mul_sum]
    exact Finset.sum_congr rfl fun i _ => by ring
  rw [Finset.sum_congr rfl fun q' _ => h4 q']
  simp

/-- **C75 (both directions).** Whatever values the moments have, the populations given by the raw equations have these central
moments. -/
theorem C75_raw_moments (c : Fin Q → Fin D → K) (e : Fin Q → Fin D → ℕ) (hinj : Function.Injective e) (he : ∀ j k, e j k ≤ 2)
    (hdown : ∀ i (g : Fin D → ℕ), (∀ k, g k ≤ e i k) → ∃ j, e j = g) (minv : Fin Q → Fin Q → K)
    (hm : ∀ q q', ∑ i, minv q i * ∏ k, c q' k ^ e i k = if q' = q then 1 else 0) (u : Fin D → K) (κ : Fin Q → K) (j : Fin Q) :
    Spec.centralMoment c u (fun q => val u (momentValues κ) (rawEquation e (minv q))) (e j) = κ j := by
  let B : Matrix (Fin Q) (Fin Q) K := Matrix.of fun q j => val u (momentValues (Pi.single j 1)) (rawEquation e (minv q))
  let A : Matrix (Fin Q) (Fin Q) K := Matrix.of fun j q => ∏ k, (c q k - u k) ^ e j k
  have hval : ∀ (κ : Fin Q → K) q, val u (momentValues κ) (rawEquation e (minv q)) = ∑ j, B q j * κ j := by
    intro κ q
    have hB : ∀ j, B q j = ∑ p, (∏ k, u k ^ (p k).val) * rawEquation e (minv q) p j := by
      intro j
      show val u (momentValues (Pi.single j 1)) (rawEquation e (minv q)) = _
      unfold val momentValues
      simp [Pi.single_apply]
    simp only [hB, Finset.sum_mul]
    rw [Finset.sum_comm]
    unfold val momentValues
    simp only [LinearMap.coe_mk, AddHom.coe_mk, Finset.mul_sum]
    exact Finset.sum_congr rfl fun p _ => Finset.sum_congr rfl fun j _ => by ring
  have h1 : B * A = 1 := by
    ext q q'
    rw [Matrix.mul_apply]
    have := C75_raw_inverse c e hinj he hdown minv hm u (Pi.single q' 1) q
    rw [hval] at this
    have h2 : ∀ j, Spec.centralMoment c u (Pi.single q' 1) (e j) = A j q' := by
      intro j
      unfold Spec.centralMoment
      simp [Pi.single_apply, A]
    simp only [h2] at this
    rw [this, Matrix.one_apply, Pi.single_apply]
  have h2 : A * B = 1 := mul_eq_one_comm.1 h1
  unfold Spec.centralMoment
  have h3 : ∀ q, val u (momentValues κ) (rawEquation e (minv q)) * ∏ k, (c q k - u k) ^ e j k = ∑ i, A j q * B q i * κ i := by
    intro q
    rw [hval, Finset.sum_mul]
    exact Finset.sum_congr rfl fun i _ => by simp only [A, Matrix.of_apply]; ring
  rw [Finset.sum_congr rfl fun q _ => h3 q, Finset.sum_comm]
  have h4 : ∀ i, ∑ q, A j q * B q i * κ i = (if j = i then 1 else 0) * κ i := by
    intro i
    rw [← Finset.sum_mul, ← Matrix.mul_apply, h2, Matrix.one_apply]
  rw [Finset.sum_congr rfl fun i _ => h4 i]
  simp

/-- **C75.** The backward transform as a whole: in at most three dimensions with direction components -1, 0, 1 the split equations return
populations whose central moments about `u` are the given moments, and there is only one such set of populations. -/
theorem C75_backward [CharZero K] [DecidableEq K] (hD : D ≤ 3) (dirs : Fin Q → Fin D → ℤ)
    (hdirs : ∀ q k, dirs q k = -1 ∨ dirs q k = 0 ∨ dirs q k = 1) (e : Fin Q → Fin D → ℕ) (hinj : Function.Injective e)
    (he : ∀ j k, e j k ≤ 2) (hdown : ∀ i (g : Fin D → ℕ), (∀ k, g k ≤ e i k) → ∃ j, e j = g) (minv : Fin Q → Fin Q → K)
    (hm : ∀ q q', ∑ i, minv q i * ∏ k, (dirs q' k : K) ^ e i k = if q' = q then 1 else 0) (n : ℕ) :
    ∃ rhs st, splitAll K ((List.finRange Q).map fun q => (rawEquation e (minv q), dirs q)) ⟨n, [], []⟩ = .ok (rhs, st) ∧
      ∀ (u : Fin D → K) (κ : Fin Q → K), ∃ f : Fin Q → K,
        rhs.map (evalRhs u (momentValues κ) (exec u (momentValues κ) st.subs)) = (List.finRange Q).map (fun q => some (f q)) ∧
        (∀ j, Spec.centralMoment (fun q k => (dirs q k : K)) u f (e j) = κ j) ∧
        ∀ g : Fin Q → K, (∀ j, Spec.centralMoment (fun q k => (dirs q k : K)) u g (e j) = κ j) → g = f := by
  obtain ⟨rhs, st, h, -, h2⟩ := C75_values (K := K) hD ((List.finRange Q).map fun q => (rawEquation e (minv q), dirs q))
    (by
      intro x hx k
      obtain ⟨q, -, rfl⟩ := List.mem_map.1 hx
      exact hdirs q k) n
  refine ⟨rhs, st, h, fun u κ => ⟨fun q => val u (momentValues κ) (rawEquation e (minv q)), ?_, ?_, ?_⟩⟩
  · rw [h2, List.map_map]; rfl
  · exact C75_raw_moments _ e hinj he hdown minv hm u κ
  · intro g hg
    funext q
    have := C75_raw_inverse (fun q k => (dirs q k : K)) e hinj he hdown minv hm u g q
    rw [← this]
    simp only [hg]

end raw

/-! ### Where it does not work -/

/-- **C75 (other directions).** A direction with another component than -1, 0, 1 in the last place raises a `KeyError` as soon as the
equation contains a velocity; so the transform is not for stencils with longer links. -/
theorem C75_long_links (r : ℕ) (dir : Fin (r + 1) → ℤ) (hd : dir (Fin.last r) < -1 ∨ 1 < dir (Fin.last r)) (c : Poly (r + 1) V)
    (hv : hasVelocity c = true) (st : State (r + 1) V) : split K dir (r + 1) le_rfl c st = .error .keyError := by
  unfold split
  have : ¬ (dir (Fin.last r) = -1 ∨ dir (Fin.last r) = 0 ∨ dir (Fin.last r) = 1) := by omega
  rw [if_pos hv]
  exact if_neg this

example : split ℚ ![(0 : ℤ), 2] 2 le_rfl (fun p => if p = ![1, 0] then (1 : ℚ) else 0) ⟨0, [], []⟩ = .error .keyError :=
  C75_long_links 1 _ (by decide) _ (by decide +kernel) _

/-- The velocity component `u_0` as a polynomial in four components. -/
def fourDim : Poly 4 ℚ := fun p => if p = ![1, 0, 0, 0] then 1 else 0

/-- Evaluation of the split equations for one direction. -/
def runSplit (c : Poly 4 ℚ) (dir : Fin 4 → ℤ) (u : Fin 4 → ℚ) : Option (Option ℚ) :=
  match split ℚ dir 4 le_rfl c ⟨0, [], []⟩ with
  | .ok (rhs, st) => some (evalRhs u LinearMap.id (exec u LinearMap.id st.subs) rhs)
  | .error _ => none

/-- **C75 (four dimensions).** The bound on the dimension is needed.  For four components and the rest direction, the expression `u_0` has the
coefficient `-u_0` in the last component, this has `u_0` in the third and this again `-u_0` in the second.  The dictionary has a symbol for it, which
is not assigned yet: the assignments are a cycle, and the equation has no value. -/
theorem C75_four_dimensions : runSplit fourDim (fun _ => 0) (fun _ => 1) = some none ∧ val (fun _ => 1) LinearMap.id fourDim = 1 := by
  constructor
  · decide +kernel
  · decide +kernel

/-! ### D2Q9 -/

section example9

/-- D2Q9 in lexicographic order -/
def dirs9 (q : Fin 9) : Fin 2 → ℤ := ![(q.val / 3 : ℤ) - 1, (q.val % 3 : ℤ) - 1]

/-- The exponents up to two -/
def exps9 (j : Fin 9) : Fin 2 → ℕ := ![j.val / 3, j.val % 3]

/-- The inverse of the moment matrix in one dimension: the populations -1, 0, 1 from the moments 0, 1, 2 -/
def inv3 (q i : ℕ) : ℚ := (![![0, -1 / 2, 1 / 2], ![1, 0, -1], ![0, 1 / 2, 1 / 2]] : Fin 3 → Fin 3 → ℚ) (Fin.ofNat 3 q) (Fin.ofNat 3 i)

def inv9 (q i : Fin 9) : ℚ := inv3 (q.val / 3) (i.val / 3) * inv3 (q.val % 3) (i.val % 3)

theorem dirs9_unit : ∀ q k, dirs9 q k = -1 ∨ dirs9 q k = 0 ∨ dirs9 q k = 1 := by decide
theorem exps9_inj : Function.Injective exps9 := by decide
theorem exps9_le : ∀ j k, exps9 j k ≤ 2 := by decide
theorem exps9_down (i : Fin 9) (g : Fin 2 → ℕ) (h : ∀ k, g k ≤ exps9 i k) : ∃ j, exps9 j = g := by
  have h0 := (h 0).trans (exps9_le i 0)
  have h1 := (h 1).trans (exps9_le i 1)
  refine ⟨⟨3 * g 0 + g 1, by omega⟩, ?_⟩
  funext k
  fin_cases k <;> simp [exps9] <;> omega
theorem inv9_inv : ∀ q q', ∑ i, inv9 q i * ∏ k, (dirs9 q' k : ℚ) ^ exps9 i k = if q' = q then 1 else 0 := by decide +kernel

example : ∃ rhs st, splitAll ℚ ((List.finRange 9).map fun q => (rawEquation exps9 (inv9 q), dirs9 q)) ⟨0, [], []⟩ = .ok (rhs, st) ∧
    ∀ (u : Fin 2 → ℚ) (κ : Fin 9 → ℚ), ∃ f : Fin 9 → ℚ,
      rhs.map (evalRhs u (momentValues κ) (exec u (momentValues κ) st.subs)) = (List.finRange 9).map (fun q => some (f q)) ∧
      (∀ j, Spec.centralMoment (fun q k => (dirs9 q k : ℚ)) u f (exps9 j) = κ j) ∧
      ∀ g : Fin 9 → ℚ, (∀ j, Spec.centralMoment (fun q k => (dirs9 q k : ℚ)) u g (exps9 j) = κ j) → g = f :=
  C75_backward (by norm_num) dirs9 dirs9_unit exps9 exps9_inj exps9_le exps9_down inv9 inv9_inv 0

end example9

end FastBackward
end Lbm
