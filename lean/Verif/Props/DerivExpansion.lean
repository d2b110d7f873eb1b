/-
C125: expansion of derivatives and its inverse.
-/
import Verif.DerivExpansion
import Mathlib.Algebra.BigOperators.Group.Finset.Basic
import Mathlib.Algebra.BigOperators.Intervals
import Mathlib.Algebra.Field.Rat
import Mathlib.Tactic.Ring
import Mathlib.Tactic.LinearCombination
import Mathlib.Tactic.NormNum

namespace Lbm
namespace DerivExpansion

open Ex

variable {K : Type} [Field K]

/-- Specification: values of symbols and derivatives. -/
structure Val (K : Type) where
  sym : ℕ → K
  diff : ℕ → ℕ → ℤ → K

/-- Specification: the value of an expression. -/
def eval (v : Val K) : Ex K → K
  | num a => a
  | sym s => v.sym s
  | diff a t s => v.diff a t s
  | add a b => eval v a + eval v b
  | mul a b => eval v a * eval v b

/-- Specification: all derivatives have this property. -/
def All (P : ℕ → ℤ → Prop) : Ex K → Prop
  | num _ => True
  | sym _ => True
  | diff _ t s => P t s
  | add a b => All P a ∧ All P b
  | mul a b => All P a ∧ All P b

/-- Specification: the derivatives with respect to the label are the power series of their parts. -/
def IsSeries (v : Val K) (eps : K) (label start stop : ℕ) : Prop :=
  ∀ a, v.diff a label (-1) = ∑ i ∈ Finset.Ico start stop, eps ^ i * v.diff a label i

theorem eval_series (v : Val K) (eps : K) (a label start stop : ℕ) :
    eval v (series eps a label start stop) = ∑ i ∈ Finset.Ico start stop, eps ^ i * v.diff a label i := by
  have h : ∀ (l : List ℕ) (e : Ex K), eval v (l.foldl (fun e (i : ℕ) => add e (mul (num (eps ^ i)) (diff a label i))) e) =
      eval v e + (l.map fun (i : ℕ) => eps ^ i * v.diff a label i).sum := by
    intro l
    induction l with
    | nil => intro e; simp
    | cons x l ih => intro e; rw [List.foldl_cons, ih, List.map_cons, List.sum_cons]; simp only [eval]; ring
  rw [series, h, Finset.sum_eq_multiset_sum]
  simp only [eval, zero_add]
  rfl

omit [Field K] in
theorem all_replace {P R : ℕ → ℤ → Prop} (g : ℕ → ℕ → ℤ → Option (Ex K)) (hs : ∀ a t s e, R t s → g a t s = some e → All P e)
    (hn : ∀ a t s, R t s → g a t s = none → P t s) (e : Ex K) (he : All R e) : All P (e.replace g) := by
  induction e with
  | num a => trivial
  | sym s => trivial
  | diff a t s =>
    simp only [Ex.replace]
    cases h : g a t s with
    | none => exact hn a t s he h
    | some e => exact hs a t s e he h
  | add a b iha ihb => exact ⟨iha he.1, ihb he.2⟩
  | mul a b iha ihb => exact ⟨iha he.1, ihb he.2⟩

theorem all_series (P : ℕ → ℤ → Prop) (eps : K) (a label start stop : ℕ) (h : ∀ i : ℕ, start ≤ i → i < stop → P label i) :
    All P (series eps a label start stop) := by
  have H : ∀ (l : List ℕ) (e : Ex K), All P e → (∀ i ∈ l, P label (i : ℤ)) →
      All P (l.foldl (fun e (i : ℕ) => add e (mul (num (eps ^ i)) (diff a label i))) e) := by
    intro l
    induction l with
    | nil => intro e he _; exact he
    | cons x l ih =>
      intro e he hl
      exact ih _ ⟨he, trivial, hl x List.mem_cons_self⟩ fun i hi => hl i (List.mem_cons_of_mem _ hi)
  refine H _ _ trivial fun i hi => ?_
  rw [List.mem_range'_1] at hi
  exact h i hi.1 (by omega)

/-- Replacing leaves under a property of the derivatives keeps the value if it keeps that of the derivatives. -/
theorem eval_replace (v w : Val K) (hvw : v.sym = w.sym) {P : ℕ → ℤ → Prop} (g : ℕ → ℕ → ℤ → Option (Ex K))
    (h : ∀ a t s, P t s → eval v ((g a t s).getD (diff a t s)) = w.diff a t s) (e : Ex K) (he : All P e) :
    eval v (e.replace g) = eval w e := by
  induction e with
  | num a => rfl
  | sym s => simp only [Ex.replace, eval, hvw]
  | diff a t s => exact h a t s he
  | add a b iha ihb => simp only [Ex.replace, eval, iha he.1, ihb he.2]
  | mul a b iha ihb => simp only [Ex.replace, eval, iha he.1, ihb he.2]

omit [Field K] in
theorem all_true (e : Ex K) : All (fun _ _ => True) e := by
  induction e with
  | num a => trivial
  | sym s => trivial
  | diff a t s => trivial
  | add a b iha ihb => exact ⟨iha, ihb⟩
  | mul a b iha ihb => exact ⟨iha, ihb⟩

/-- C125. The expansion keeps the value if the derivatives are the series of their parts and none has a superscript yet. -/
theorem C125_expand_sound (v : Val K) (eps : K) (label start stop : ℕ) (hv : IsSeries v eps label start stop) (e : Ex K)
    (he : All (fun t s => t = label → s = -1) e) : eval v (expand eps label start stop e) = eval v e := by
  refine eval_replace v v rfl _ (fun a t s hs => ?_) e he
  by_cases ht : t = label
  · rw [if_pos ht, Option.getD_some, eval_series, hs ht, ht, hv a]
  · rw [if_neg ht]; rfl

/-- C125. Afterwards no derivative without superscript is left. -/
theorem C125_expand_complete (eps : K) (label start stop : ℕ) (e : Ex K) :
    All (fun t s => t = label → (start : ℤ) ≤ s ∧ s < stop) (expand eps label start stop e) := by
  refine all_replace (R := fun _ _ => True) _ ?_ ?_ e (all_true e)
  · intro a t s e' _ h
    split_ifs at h with ht
    cases h
    exact all_series _ _ _ _ _ _ fun i h1 h2 _ => by omega
  · intro a t s _ h ht
    rw [if_pos ht] at h
    cases h

theorem recombine_value (v : Val K) (eps : K) (heps : eps ≠ 0) (a label start stop : ℕ) (h : start < stop) :
    eval v (mul (add (diff a label (-1)) (mul (num (-1)) (series eps a label start (stop - 1)))) (num (eps ^ (stop - 1))⁻¹)) =
      v.diff a label ((stop - 1 : ℕ) : ℤ) +
        (v.diff a label (-1) - ∑ i ∈ Finset.Ico start stop, eps ^ i * v.diff a label i) * (eps ^ (stop - 1))⁻¹ := by
  obtain ⟨n, rfl⟩ : ∃ n, stop = n + 1 := ⟨stop - 1, by omega⟩
  rw [Finset.sum_Ico_succ_top (by omega)]
  simp only [eval, eval_series, Nat.add_sub_cancel]
  have : eps ^ n * (eps ^ n)⁻¹ = 1 := mul_inv_cancel₀ (pow_ne_zero n heps)
  linear_combination (v.diff a label (n : ℤ)) * this

/-- C125. Recombining keeps the value of every expression if the derivatives are the series of their parts. -/
theorem C125_recombine_sound (v : Val K) (eps : K) (heps : eps ≠ 0) (label start stop : ℕ) (h : start < stop)
    (hv : IsSeries v eps label start stop) (e : Ex K) : eval v (recombine eps label start stop e) = eval v e := by
  refine eval_replace v v rfl _ (fun a t s _ => ?_) e (all_true e)
  by_cases ht : t = label ∧ s = (stop : ℤ) - 1
  · rw [if_pos ht, Option.getD_some, recombine_value v eps heps a label start stop h, hv a, sub_self, zero_mul, add_zero, ht.1, ht.2]
    congr 1
    omega
  · rw [if_neg ht]; rfl

/-- C125. Afterwards the part of the highest order does not occur any more. -/
theorem C125_recombine_complete (eps : K) (label start stop : ℕ) (h : start < stop) (e : Ex K) :
    All (fun t s => t = label → s ≠ (stop : ℤ) - 1) (recombine eps label start stop e) := by
  refine all_replace (R := fun _ _ => True) _ ?_ ?_ e (all_true e)
  · intro a t s e' _ h'
    split_ifs at h' with ht
    cases h'
    exact ⟨⟨fun _ => by omega, trivial, all_series _ _ _ _ _ _ fun i _ _ _ => by omega⟩, trivial⟩
  · intro a t s _ h' ht hs
    rw [if_pos ⟨ht, hs⟩] at h'
    cases h'

/-- C125. Recombining is the inverse of the expansion: for all values of derivatives and their parts, related or not. -/
theorem C125_roundtrip (v : Val K) (eps : K) (heps : eps ≠ 0) (label start stop : ℕ) (h : start < stop) (e : Ex K)
    (he : All (fun t s => t = label → s = -1) e) : eval v (recombine eps label start stop (expand eps label start stop e)) = eval v e := by
  set w : Val K := ⟨v.sym, fun a t s => if t = label ∧ s = (stop : ℤ) - 1 then
    v.diff a label ((stop - 1 : ℕ) : ℤ) +
        (v.diff a label (-1) - ∑ i ∈ Finset.Ico start stop, eps ^ i * v.diff a label i) * (eps ^ (stop - 1))⁻¹ else v.diff a t s⟩ with hw
  have h1 : ∀ e', eval v (recombine eps label start stop e') = eval w e' := by
    intro e'
    refine eval_replace v w rfl _ (fun a t s _ => ?_) e' (all_true e')
    by_cases ht : t = label ∧ s = (stop : ℤ) - 1
    · rw [if_pos ht, Option.getD_some, recombine_value v eps heps a label start stop h, hw]
      simp only [if_pos ht]
    · rw [if_neg ht, hw]
      simp only [if_neg ht]
      rfl
  rw [h1]
  refine eval_replace w v rfl _ (fun a t s hs => ?_) e he
  by_cases ht : t = label
  · rw [if_pos ht, Option.getD_some, eval_series, hs ht, ht]
    obtain ⟨n, rfl⟩ : ∃ n, stop = n + 1 := ⟨stop - 1, by omega⟩
    rw [Finset.sum_Ico_succ_top (by omega)]
    have e1 : ∑ i ∈ Finset.Ico start n, eps ^ i * w.diff a label i = ∑ i ∈ Finset.Ico start n, eps ^ i * v.diff a label i := by
      refine Finset.sum_congr rfl fun i hi => ?_
      rw [Finset.mem_Ico] at hi
      have : ¬ (label = label ∧ (i : ℤ) = ((n + 1 : ℕ) : ℤ) - 1) := by rintro ⟨-, hh⟩; omega
      exact congrArg (eps ^ i * ·) (if_neg this)
    have e2 : label = label ∧ (n : ℤ) = ((n + 1 : ℕ) : ℤ) - 1 := ⟨rfl, by omega⟩
    have e3 : w.diff a label (n : ℤ) = v.diff a label ((n + 1 - 1 : ℕ) : ℤ) +
        (v.diff a label (-1) - ∑ i ∈ Finset.Ico start (n + 1), eps ^ i * v.diff a label i) * (eps ^ (n + 1 - 1))⁻¹ := if_pos e2
    rw [e1, e3, Finset.sum_Ico_succ_top (by omega), Nat.add_sub_cancel]
    have : eps ^ n * (eps ^ n)⁻¹ = 1 := mul_inv_cancel₀ (pow_ne_zero n heps)
    linear_combination (v.diff a label (-1) - (∑ i ∈ Finset.Ico start n, eps ^ i * v.diff a label i + eps ^ n * v.diff a label n)) * this
  · rw [if_neg ht]
    have : ¬ (t = label ∧ s = (stop : ℤ) - 1) := fun hh => ht hh.1
    simp only [Option.getD_none, eval, hw, if_neg this]

/-- C125. `_ce_recombine` keeps the value if time derivatives have two parts and spatial derivatives one. -/
theorem C125_ce_recombine (v : Val K) (eps : K) (heps : eps ≠ 0) (t dim : ℕ) (ht : IsSeries v eps t 1 3)
    (hx : ∀ l < dim, IsSeries v eps l 1 2) (e : Ex K) : eval v (ceRecombine eps t dim e) = eval v e := by
  have H : ∀ (l : List ℕ) (e : Ex K), (∀ x ∈ l, x < dim) → eval v (l.foldl (fun e l => recombine eps l 1 2 e) e) = eval v e := by
    intro l
    induction l with
    | nil => intro e _; rfl
    | cons x l ih =>
      intro e hl
      rw [List.foldl_cons, ih _ fun y hy => hl y (List.mem_cons_of_mem _ hy),
        C125_recombine_sound v eps heps x 1 2 (by omega) (hx x (hl x List.mem_cons_self))]
  rw [ceRecombine, H _ _ fun x hx' => List.mem_range.1 hx', C125_recombine_sound v eps heps t 1 3 (by omega) ht]

/-- C125. After `_ce_recombine` neither the second part of time derivatives nor the first part of spatial derivatives is left. -/
theorem C125_ce_complete (eps : K) (t dim : ℕ) (e : Ex K) :
    All (fun t' s => (t' = t → s ≠ 2) ∧ (t' < dim → s ≠ 1)) (ceRecombine eps t dim e) := by
  have H : ∀ (l S : List ℕ) (e : Ex K), All (fun t' s => (t' = t → s ≠ 2) ∧ (t' ∈ S → s ≠ 1)) e →
      All (fun t' s => (t' = t → s ≠ 2) ∧ (t' ∈ S ++ l → s ≠ 1)) (l.foldl (fun e l => recombine eps l 1 2 e) e) := by
    intro l
    induction l with
    | nil => intro S e he; rw [List.append_nil]; exact he
    | cons x l ih =>
      intro S e he
      have : S ++ x :: l = (S ++ [x]) ++ l := by simp
      rw [List.foldl_cons, this]
      refine ih _ _ (all_replace _ ?_ ?_ e he)
      · intro a t' s e' _ h'
        split_ifs at h' with ht
        cases h'
        refine ⟨⟨⟨fun _ => by omega, fun _ => by omega⟩, trivial, all_series _ _ _ _ _ _ fun i h1 h2 => ?_⟩, trivial⟩
        omega
      · intro a t' s hR h'
        refine ⟨hR.1, fun hm hs => ?_⟩
        rcases List.mem_append.1 hm with hm | hm
        · exact hR.2 hm hs
        · rw [if_pos ⟨List.mem_singleton.1 hm, by rw [hs]; rfl⟩] at h'
          cases h'
  have h0 : All (fun t' s => (t' = t → s ≠ 2) ∧ (t' ∈ ([] : List ℕ) → s ≠ 1)) (recombine eps t 1 3 e) := by
    have h1 := C125_recombine_complete eps t 1 3 (by omega) e
    have mono : ∀ e : Ex K, All (fun t' s => t' = t → s ≠ ((3 : ℕ) : ℤ) - 1) e →
        All (fun t' s => (t' = t → s ≠ 2) ∧ (t' ∈ ([] : List ℕ) → s ≠ 1)) e := by
      intro e
      induction e with
      | num a => exact id
      | sym s => exact id
      | diff a t' s => exact fun h => ⟨fun ht hs => h ht (by rw [hs]; rfl), fun hm => by simp at hm⟩
      | add a b iha ihb => exact fun h => ⟨iha h.1, ihb h.2⟩
      | mul a b iha ihb => exact fun h => ⟨iha h.1, ihb h.2⟩
    exact mono _ h1
  have h2 := H (List.range dim) [] _ h0
  simp only [List.nil_append, List.mem_range] at h2
  exact h2

/-- C125. The superscript is not looked at: a part of a derivative is expanded like the derivative itself. -/
theorem C125_superscript_ignored (eps : K) (a label start stop : ℕ) (s : ℤ) :
    expand eps label start stop (diff a label s) = expand eps label start stop (diff a label (-1)) := by
  simp only [expand, Ex.replace, if_true, Option.getD_some]

/-- C125. So the value of an expression with superscripts is not kept. -/
theorem C125_superscript_not_sound : ∃ (v : Val ℚ) (e : Ex ℚ), IsSeries v 2 0 1 3 ∧ eval v (expand 2 0 1 3 e) ≠ eval v e := by
  refine ⟨⟨fun _ => 0, fun _ _ s => if s = -1 then 6 else 1⟩, diff 0 0 2, fun a => ?_, ?_⟩
  · simp only [if_true, Finset.sum_Ico_succ_top (show 1 ≤ 2 by omega), Finset.sum_Ico_succ_top (show 1 ≤ 1 by omega), Finset.Ico_self,
      Finset.sum_empty]
    norm_num
  · simp only [expand, Ex.replace, if_true, Option.getD_some, eval_series, eval, Finset.sum_Ico_succ_top (show 1 ≤ 2 by omega),
      Finset.sum_Ico_succ_top (show 1 ≤ 1 by omega), Finset.Ico_self, Finset.sum_empty]
    norm_num

/-- C125. For an empty range of orders the derivatives become zero. -/
theorem C125_empty (v : Val K) (eps : K) (a label start stop : ℕ) (h : stop ≤ start) (s : ℤ) :
    eval v (expand eps label start stop (diff a label s)) = 0 := by
  simp only [expand, Ex.replace, if_true, Option.getD_some, eval_series, Finset.Ico_eq_empty_of_le h, Finset.sum_empty]

/-- Concrete case: `∂_7 a + x ∂_0 b` has no superscripts; values with `∂_7 = 2 ∂_7^{(1)} + 4 ∂_7^{(2)}` and `∂_0 = 2 ∂_0^{(1)}`. -/
example : All (fun t s => t = 7 → s = -1) (add (diff 0 7 (-1)) (mul (sym 0) (diff 1 0 (-1))) : Ex ℚ) ∧
    ∃ v : Val ℚ, IsSeries v 2 7 1 3 ∧ (∀ l < 1, IsSeries v 2 l 1 2) ∧ v.diff 0 7 2 = 1 := by
  refine ⟨⟨fun _ => rfl, trivial, fun h => by omega⟩, ⟨fun _ => 0, fun _ t s => if s = -1 then (if t = 7 then 6 else 2) else 1⟩,
    fun a => ?_, fun l hl a => ?_, by simp⟩
  · simp only [if_true, Finset.sum_Ico_succ_top (show 1 ≤ 2 by omega), Finset.sum_Ico_succ_top (show 1 ≤ 1 by omega), Finset.Ico_self,
      Finset.sum_empty]
    norm_num
  · have : l ≠ 7 := by omega
    simp only [if_true, if_neg this, Finset.sum_Ico_succ_top (show 1 ≤ 1 by omega), Finset.Ico_self, Finset.sum_empty]
    norm_num

end DerivExpansion
end Lbm
