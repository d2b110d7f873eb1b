/-
C123: inserting moments into the equations of the Chapman-Enskog analysis.
-/
import Verif.CeSubst
import Mathlib.Algebra.Field.Rat
import Mathlib.Tactic.NormNum

namespace Lbm
namespace CeSubst

open Ex

variable {K : Type} [Field K]

/-- Specification: values of symbols and moments, and what derivatives are. -/
structure Val (K : Type) where
  sym : ℕ → K
  mom : Name → List ℕ → ℤ → K
  diff : ℕ → K → K

/-- Specification: the value of an expression. -/
def eval (v : Val K) : Ex K → K
  | num a => a
  | sym s => v.sym s
  | mom n t s => v.mom n t s
  | add a b => eval v a + eval v b
  | mul a b => eval v a * eval v b
  | pow a n => eval v a ^ n
  | diff i a => v.diff i (eval v a)

/-- Specification: a moment with this property occurs. -/
def Occurs (P : Name → List ℕ → ℤ → Prop) : Ex K → Prop
  | num _ => False
  | sym _ => False
  | mom n t s => P n t s
  | add a b => Occurs P a ∨ Occurs P b
  | mul a b => Occurs P a ∨ Occurs P b
  | pow a _ => Occurs P a
  | diff _ a => Occurs P a

/-- Specification: expressions of which only numbers, symbols and moments before the collision are raised to a power; an expanded expression
linear in the moments after the collision has this form if there are no quotients by sums. -/
inductive Flat : Ex K → Prop
  | num (a : K) : Flat (num a)
  | sym (s : ℕ) : Flat (sym s)
  | mom (n : Name) (t : List ℕ) (s : ℤ) : Flat (mom n t s)
  | add {a b : Ex K} : Flat a → Flat b → Flat (add a b)
  | mul {a b : Ex K} : Flat a → Flat b → Flat (mul a b)
  | diff {i : ℕ} {a : Ex K} : Flat a → Flat (diff i a)
  | powNum (a : K) (n : ℤ) : Flat (pow (Ex.num a) n)
  | powSym (s : ℕ) (n : ℤ) : Flat (pow (Ex.sym s) n)
  | powMom (t : List ℕ) (s : ℤ) (n : ℤ) : Flat (pow (Ex.mom .pre t s) n)

theorem eval_leafPow (v : Val K) (e : Ex K) (n : ℤ) : eval v (leafPow e n) = eval v e ^ n := by
  unfold leafPow
  split_ifs with h
  · rw [h, zpow_one]
  · rfl

/-- Replacing moments changes the values of the moments only. -/
theorem eval_replace (v : Val K) (g : Name → List ℕ → ℤ → Option (Ex K)) (e : Ex K) :
    eval v (e.replace g) = eval { v with mom := fun n t s => ((g n t s).map (eval v)).getD (v.mom n t s) } e := by
  induction e with
  | num a => rfl
  | sym s => rfl
  | mom n t s => simp only [Ex.replace, eval]; cases g n t s <;> rfl
  | add a b iha ihb => simp only [Ex.replace, eval, iha, ihb]
  | mul a b iha ihb => simp only [Ex.replace, eval, iha, ihb]
  | pow a n ih => simp only [Ex.replace, eval, ih]
  | diff i a ih => simp only [Ex.replace, eval, ih]

omit [Field K] in
theorem occurs_replace (P : Name → List ℕ → ℤ → Prop) (g : Name → List ℕ → ℤ → Option (Ex K))
    (hs : ∀ n t s e, g n t s = some e → ¬ Occurs P e) (hn : ∀ n t s, g n t s = none → ¬ P n t s) (e : Ex K) : ¬ Occurs P (e.replace g) := by
  induction e with
  | num a => exact id
  | sym s => exact id
  | mom n t s =>
    simp only [Ex.replace]
    cases h : g n t s with
    | none => exact hn n t s h
    | some e => exact hs n t s e h
  | add a b iha ihb => exact fun h => h.elim iha ihb
  | mul a b iha ihb => exact fun h => h.elim iha ihb
  | pow a n ih => exact ih
  | diff i a ih => exact ih

/-- C123. Inserting moments does not change the value of an equation if the moments of order zero in the expansion are the equilibrium
moments and, where they are used, the solvability conditions hold. -/
theorem C123_insert_sound (v : Val K) (eq : List ℕ → Ex K) (solv : Bool) (h0 : ∀ t, v.mom .pre t 0 = eval v (eq t))
    (h1 : solv = true → ∀ t s, 0 < s → t.sum ≤ 1 → v.mom .pre t s = 0) (e : Ex K) : eval v (insertMoments eq solv e) = eval v e := by
  rw [insertMoments, eval_replace]
  congr 1
  cases v with
  | mk vs vm vd =>
  congr 1
  funext n t s
  dsimp only
  split_ifs with ha hb
  · obtain ⟨rfl, rfl⟩ := ha
    exact (h0 t).symm
  · obtain ⟨hs, hp, ht, rfl⟩ := hb
    exact (h1 hs t s hp ht).symm
  · rfl

/-- C123. Afterwards no equilibrium moment is left and, with solvability conditions, no higher part of a conserved moment. -/
theorem C123_insert_complete (eq : List ℕ → Ex K) (heq : ∀ t, ¬ Occurs (fun _ _ _ => True) (eq t)) (solv : Bool) (e : Ex K) :
    ¬ Occurs (fun n t s => n = .pre ∧ (s = 0 ∨ (solv = true ∧ 0 < s ∧ t.sum ≤ 1))) (insertMoments eq solv e) := by
  have mono : ∀ (P : Name → List ℕ → ℤ → Prop) (e : Ex K), Occurs P e → Occurs (fun _ _ _ => True) e := by
    intro P e
    induction e with
    | num a => exact id
    | sym s => exact id
    | mom n t s => exact fun _ => trivial
    | add a b iha ihb => exact Or.imp iha ihb
    | mul a b iha ihb => exact Or.imp iha ihb
    | pow a n ih => exact ih
    | diff i a ih => exact ih
  refine occurs_replace _ _ ?_ ?_ e
  · intro n t s e he
    split_ifs at he with ha hb
    · cases he
      exact fun h => heq t (mono _ _ h)
    · cases he
      exact id
  · intro n t s hnone
    split_ifs at hnone with ha hb
    rintro ⟨hn, h | ⟨h1, h2, h3⟩⟩
    · exact ha ⟨h, hn⟩
    · exact hb ⟨h1, h2, h3, hn⟩

/-- C123. Without the solvability conditions the higher parts of the moments stay. -/
theorem C123_insert_keeps (eq : List ℕ → Ex K) (solv : Bool) (t : List ℕ) (s : ℤ) (h : s ≠ 0) (h' : solv = false ∨ 2 ≤ t.sum) :
    insertMoments eq solv (mom .pre t s) = mom .pre t s := by
  have hb : ¬ (solv = true ∧ 0 < s ∧ t.sum ≤ 1 ∧ True) := by
    rintro ⟨h1, -, h2, -⟩
    rcases h' with h' | h'
    · rw [h'] at h1; cases h1
    · omega
  simp only [insertMoments, Ex.replace, h, false_and, if_false, hb, Option.getD_none]

/-- C123. Replacing the moments of the collision operator: the value of the equation in which these moments have the values after the collision. -/
theorem C123_operator (v : Val K) (post : List ℕ → ℤ → ℤ → Ex K) (h : ∀ t s, v.mom .post t s = eval v (post t s 1)) (e : Ex K) :
    eval v (substituteOperator post e) = eval v e := by
  rw [substituteOperator, eval_replace]
  congr 1
  cases v with
  | mk vs vm vd =>
  congr 1
  funext n t s
  dsimp only
  split_ifs with ha
  · subst ha
    exact (h t s).symm
  · rfl

/-- C123. On flat expressions both ways to replace the moments after the collision agree. -/
theorem C123_agree (v : Val K) (post : List ℕ → ℤ → ℤ → Ex K) {e : Ex K} (h : Flat e) :
    eval v (substitutePost post e) = eval v (substituteOperator post e) := by
  unfold substitutePost substituteOperator
  induction h with
  | num a => rw [visit, eval_leafPow, zpow_one]; rfl
  | sym s => rw [visit, eval_leafPow, zpow_one]; rfl
  | mom n t s =>
    cases n with
    | pre => rw [visit, eval_leafPow, zpow_one]; rfl
    | post => rfl
  | add _ _ iha ihb => simp only [visit, Ex.replace, eval, iha, ihb]
  | mul _ _ iha ihb => simp only [visit, Ex.replace, eval, iha, ihb]
  | diff _ ih => simp only [visit, Ex.replace, eval, ih]
  | powNum a n => rw [visit, visit, eval_leafPow]; rfl
  | powSym s n => rw [visit, visit, eval_leafPow]; rfl
  | powMom t s n => rw [visit, visit, eval_leafPow]; rfl

/-- C123. `substitute` does not change the value of a flat equation in which the moments have their values. -/
theorem C123_substitute_sound (v : Val K) (post : List ℕ → ℤ → ℤ → Ex K) (eq : List ℕ → Ex K)
    (h0 : ∀ t, v.mom .pre t 0 = eval v (eq t)) (h1 : ∀ t s, v.mom .post t s = eval v (post t s 1)) {e : Ex K} (h : Flat e) :
    eval v (substitute post eq e) = eval v e := by
  have h2 : ∀ e', eval v (substitutePre eq e') = eval v e' := by
    intro e'
    rw [substitutePre, eval_replace]
    congr 1
    cases v with
    | mk vs vm vd =>
    congr 1
    funext n t s
    dsimp only
    split_ifs with ha
    · obtain ⟨rfl, rfl⟩ := ha
      exact (h0 t).symm
    · rfl
  rw [substitute, h2, C123_agree v post h, C123_operator v post h1]

omit [Field K] in
/-- C123. A power of a moment after the collision is the moment after several collisions, not the power of its value. -/
theorem C123_power (post : List ℕ → ℤ → ℤ → Ex K) (t : List ℕ) (s n : ℤ) :
    substitutePost post (pow (mom .post t s) n) = post t s n ∧
      substituteOperator post (pow (mom .post t s) n) = pow (post t s 1) n := ⟨rfl, rfl⟩

omit [Field K] in
/-- C123. The exponent of a sum or a derivative is lost, whether or not moments occur in it. -/
theorem C123_exponent_lost (post : List ℕ → ℤ → ℤ → Ex K) (a b : Ex K) (i : ℕ) (n : ℤ) :
    substitutePost post (pow (add a b) n) = substitutePost post (add a b) ∧
      substitutePost post (pow (diff i a) n) = substitutePost post (diff i a) := ⟨rfl, rfl⟩

/-- C123. So `1/(1+x)` without any moment becomes `1+x`: the value is not kept in general. -/
theorem C123_not_sound : ∃ (v : Val ℚ) (post : List ℕ → ℤ → ℤ → Ex ℚ) (e : Ex ℚ), ¬ Occurs (fun _ _ _ => True) e ∧
    eval v (substitutePost post e) ≠ eval v e := by
  refine ⟨⟨fun _ => 1, fun _ _ _ => 0, fun _ x => x⟩, fun _ _ _ => num 0, pow (add (num 1) (sym 0)) (-1), ?_, ?_⟩
  · rintro (h | h) <;> exact h
  · simp only [substitutePost, visit, leafPow, if_true, eval]
    norm_num

/-- Concrete case: the moment equation `∂_0 Π^{(1)}_{11} + x² Υ^{(1)}_{2} + Π^{(0)}_{1}` with rate 1/2. -/
example : Flat (add (diff 0 (mom .pre [1, 1] 1)) (add (mul (pow (Ex.sym 0) 2) (mom .post [2, 0] 1)) (mom .pre [1, 0] 0)) : Ex ℚ) ∧
    substitute (fun t s n => mul (num (-(1 / 2) ^ n)) (mom .pre t s)) (fun _ => Ex.sym 7)
      (add (diff 0 (mom .pre [1, 1] 1)) (add (mul (pow (Ex.sym 0) 2) (mom .post [2, 0] 1)) (mom .pre [1, 0] 0)) : Ex ℚ) =
    add (diff 0 (mom .pre [1, 1] 1)) (add (mul (pow (Ex.sym 0) 2) (mul (num (-(1 / 2) ^ (1 : ℤ))) (mom .pre [2, 0] 1))) (Ex.sym 7)) :=
  ⟨.add (.diff (.mom _ _ _)) (.add (.mul (.powSym _ _) (.mom _ _ _)) (.mom _ _ _)), rfl⟩

/-- Concrete case: values that meet the hypotheses of `C123_substitute_sound` and `C123_insert_sound`. -/
example : ∃ v : Val ℚ, (∀ t, v.mom .pre t 0 = eval v (Ex.sym 7)) ∧
    (∀ t s, v.mom .post t s = eval v (mul (num (-(1 / 2) ^ (1 : ℤ))) (mom .pre t s))) ∧
    (∀ t s, 0 < s → t.sum ≤ 1 → v.mom .pre t s = 0) ∧ v.mom .pre [1, 1] 1 = 3 :=
  ⟨⟨fun _ => 5, fun n t s => (match n with | .pre => 1 | .post => -(1 / 2) ^ (1 : ℤ)) *
      (if s = 0 then 5 else if 0 < s ∧ t.sum ≤ 1 then 0 else 3), fun _ x => x⟩,
    fun t => by simp [eval], fun t s => by simp [eval], fun t s h h' => by simp [h, h', h.ne'], by simp⟩

end CeSubst
end Lbm
