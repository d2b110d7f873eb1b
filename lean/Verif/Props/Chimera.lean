/-
C35: chimera transforms.
-/
import Verif.Chimera
import Mathlib.Algebra.BigOperators.Fin
import Mathlib.Algebra.BigOperators.Ring.Finset
import Mathlib.Data.Nat.Choose.Sum
import Mathlib.Tactic.Ring
import Mathlib.Tactic.IntervalCases
import Mathlib.Algebra.Polynomial.Eval.Defs
import Mathlib.Algebra.Polynomial.Coeff
import Mathlib.Data.List.GetD
import Mathlib.Algebra.Field.Rat

namespace Lbm

namespace Chimera

variable {K : Type} [Field K]

/-! ### Specification -/

/-- product of the factors `w i c_i e_i`, components numbered from `k` -/
def Spec.weight (w : ℕ → ℤ → ℕ → K) : ℕ → List ℤ → List ℕ → K
  | k, c :: cs, e :: es => w k c e * Spec.weight w (k + 1) cs es
  | _, _, _ => 1

/-- moment of the populations `f` for the velocities `st` -/
def Spec.moment (st : List (List ℤ)) (f : ℕ → K) (w : ℕ → ℤ → ℕ → K) (e : List ℕ) : K :=
  ∑ q : Fin st.length, f q * Spec.weight w 0 (st.get q) e

/-- moments about `-v` expressed by moments about 0: `κ a` is the value for exponents `a` -/
def Spec.shift : List K → (List ℕ → K) → List ℕ → K
  | v :: vs, κ, m :: ms => ∑ a ∈ Finset.range (m + 1), (m.choose a : K) * v ^ (m - a) * Spec.shift vs (fun l => κ (a :: l)) ms
  | _, κ, ms => κ ms

/-! ### Symbol names -/

theorem toDigits_small (e : ℕ) (h : e < 10) : Nat.toDigits 10 e = [Nat.digitChar e] := by
  interval_cases e <;> rfl

theorem digitChar_inj (a b : ℕ) (ha : a < 10) (hb : b < 10) (h : Nat.digitChar a = Nat.digitChar b) : a = b := by
  have : ∀ a b : Fin 10, Nat.digitChar a = Nat.digitChar b → a = b := by decide
  exact congrArg Fin.val (this ⟨a, ha⟩ ⟨b, hb⟩ h)

/-- names determine exponents below ten -/
theorem sqName_inj (a b : List ℕ) (ha : ∀ e ∈ a, e < 10) (hb : ∀ e ∈ b, e < 10) (h : sqName a = sqName b) : a = b := by
  induction a generalizing b with
  | nil =>
    cases b with
    | nil => rfl
    | cons y b => simp [sqName, toDigits_small y (hb y (by simp))] at h
  | cons x a ih =>
    cases b with
    | nil => simp [sqName, toDigits_small x (ha x (by simp))] at h
    | cons y b =>
      simp only [sqName, List.flatMap_cons, toDigits_small x (ha x (by simp)), toDigits_small y (hb y (by simp)),
        List.cons_append, List.nil_append, List.cons.injEq] at h
      rw [digitChar_inj x y (ha x (by simp)) (hb y (by simp)) h.1,
        ih b (fun e he => ha e (by simp [he])) (fun e he => hb e (by simp [he])) h.2]

/-! ### Assignments whose values are known -/

/-- every right-hand side has the intended value and reads only symbols known before -/
def Good (val : Sym → K) : (Sym → Prop) → Asms K → Prop
  | _, [] => True
  | P, (k, r) :: l => (∀ t ∈ r, P t.2) ∧ Rhs.eval val r = val k ∧ Good val (fun x => P x ∨ x = k) l

theorem Rhs.eval_congr (ρ ρ' : Sym → K) (r : Rhs K) (h : ∀ t ∈ r, ρ t.2 = ρ' t.2) : r.eval ρ = r.eval ρ' := by
  unfold Rhs.eval
  congr 1
  exact List.map_congr_left fun t ht => by rw [h t ht]

theorem exec_good (val : Sym → K) (l : Asms K) : ∀ (P : Sym → Prop) (ρ : Sym → K), Good val P l → (∀ x, P x → ρ x = val x) →
    ∀ x, P x ∨ x ∈ l.map Prod.fst → exec l ρ x = val x := by
  induction l with
  | nil => intro P ρ _ hρ x hx; exact hρ x (by simpa using hx)
  | cons p l ih =>
    obtain ⟨k, r⟩ := p
    intro P ρ hg hρ x hx
    obtain ⟨h1, h2, h3⟩ := hg
    have he : exec ((k, r) :: l) ρ = exec l (Function.update ρ k (Rhs.eval ρ r)) := rfl
    rw [he]
    refine ih _ _ h3 ?_ x ?_
    · have hv : Rhs.eval ρ r = val k := by rw [← h2]; exact Rhs.eval_congr _ _ _ fun t ht => hρ _ (h1 t ht)
      intro y hy
      by_cases hyk : y = k
      · subst hyk; rw [Function.update_self, hv]
      · rw [Function.update_of_ne hyk]
        exact hρ y (hy.resolve_right hyk)
    · simp only [List.map_cons, List.mem_cons] at hx
      tauto

theorem Good.append (val : Sym → K) (l l' : Asms K) : ∀ P : Sym → Prop, Good val P l →
    Good val (fun x => P x ∨ x ∈ l.map Prod.fst) l' → Good val P (l ++ l') := by
  induction l with
  | nil => intro P _ h; simpa using h
  | cons p l ih =>
    obtain ⟨k, r⟩ := p
    intro P h h'
    refine ⟨h.1, h.2.1, ih _ h.2.2 ?_⟩
    have : (fun x => (P x ∨ x = k) ∨ x ∈ l.map Prod.fst) = fun x => P x ∨ x ∈ ((k, r) :: l).map Prod.fst := by
      funext x
      simp only [List.map_cons, List.mem_cons, or_assoc]
    rw [this]; exact h'

theorem Good.mono (val : Sym → K) (l : Asms K) : ∀ P P' : Sym → Prop, (∀ x, P x → P' x) → Good val P l → Good val P' l := by
  induction l with
  | nil => intro _ _ _ _; trivial
  | cons p l ih =>
    obtain ⟨k, r⟩ := p
    intro P P' hP h
    exact ⟨fun t ht => hP _ (h.1 t ht), h.2.1, ih _ _ (fun x hx => hx.imp_left (hP x)) h.2.2⟩

theorem Good.snoc (val : Sym → K) (l : Asms K) (P : Sym → Prop) (k : Sym) (r : Rhs K) (h : Good val P l)
    (hr : ∀ t ∈ r, P t.2 ∨ t.2 ∈ l.map Prod.fst) (hv : Rhs.eval val r = val k) : Good val P (l ++ [(k, r)]) :=
  h.append val l _ P ⟨hr, hv, trivial⟩

theorem setD_keys (d : Asms K) (k : Sym) (v : Rhs K) (x : Sym) : x ∈ (setD d k v).map Prod.fst ↔ x = k ∨ x ∈ d.map Prod.fst := by
  induction d with
  | nil => simp [setD]
  | cons p d ih =>
    obtain ⟨y, e⟩ := p
    simp only [setD]
    split
    · rename_i h; subst h; simp
    · simp only [List.map_cons, List.mem_cons, ih]; tauto

theorem setD_new (d : Asms K) (k : Sym) (v : Rhs K) (h : k ∉ d.map Prod.fst) : setD d k v = d ++ [(k, v)] := by
  induction d with
  | nil => rfl
  | cons p d ih =>
    obtain ⟨y, e⟩ := p
    simp only [List.map_cons, List.mem_cons, not_or] at h
    simp only [setD, if_neg (fun e => h.1 (Eq.symm e)), ih h.2, List.cons_append]

theorem setD_same (d : Asms K) (k : Sym) (v : Rhs K) (h : k ∈ d.map Prod.fst) (hv : ∀ p ∈ d, p.1 = k → p.2 = v) : setD d k v = d := by
  induction d with
  | nil => simp at h
  | cons p d ih =>
    obtain ⟨y, e⟩ := p
    simp only [setD]
    split
    · rename_i hy
      rw [← hv (y, e) (by simp) hy]
    · rename_i hy
      simp only [List.map_cons, List.mem_cons] at h
      rw [ih (h.resolve_left fun e => hy e.symm) fun p hp => hv p (by simp [hp])]

theorem eval_append (ρ : Sym → K) (r r' : Rhs K) : Rhs.eval ρ (r ++ r') = Rhs.eval ρ r + Rhs.eval ρ r' := by
  simp [Rhs.eval]

theorem eval_scale (ρ : Sym → K) (r : Rhs K) (c : K) : Rhs.eval ρ (r.map fun t => (t.1 * c, t.2)) = Rhs.eval ρ r * c := by
  induction r with
  | nil => simp [Rhs.eval]
  | cons t r ih =>
    simp only [Rhs.eval, List.map_cons, List.sum_cons] at ih ⊢
    rw [ih]; ring

theorem eval_scale' (ρ : Sym → K) (r : Rhs K) (c : K) : Rhs.eval ρ (r.map fun t => (c * t.1, t.2)) = c * Rhs.eval ρ r := by
  induction r with
  | nil => simp [Rhs.eval]
  | cons t r ih =>
    simp only [Rhs.eval, List.map_cons, List.sum_cons] at ih ⊢
    rw [ih]; ring

/-! ### Summation over directions -/

/-- contribution of velocity `c` to the partial sum with fixed first components -/
def ind (w : ℕ → ℤ → ℕ → K) : ℕ → List ℤ → List ℕ → List ℤ → K
  | k, [], es, cs => Spec.weight w k cs es
  | k, a :: fixed, es, c :: cs => if c = a then ind w (k + 1) fixed es cs else 0
  | _, _ :: _, _, [] => 0

theorem ind_step (w : ℕ → ℤ → ℕ → K) (fixed : List ℤ) (e : ℕ) (rest : List ℕ) : ∀ (k : ℕ) (c : List ℤ),
    c.length = fixed.length + 1 + rest.length → (∀ a ∈ c, a = -1 ∨ a = 0 ∨ a = 1) →
    ind w k fixed (e :: rest) c = ind w k (fixed ++ [-1]) rest c * w (k + fixed.length) (-1) e +
      ind w k (fixed ++ [0]) rest c * w (k + fixed.length) 0 e + ind w k (fixed ++ [1]) rest c * w (k + fixed.length) 1 e := by
  induction fixed with
  | nil =>
    intro k c hc ha
    cases c with
    | nil => simp only [List.length_nil] at hc; omega
    | cons c cs =>
      rcases ha c (by simp) with rfl | rfl | rfl <;> simp [ind, Spec.weight, mul_comm]
  | cons a fixed ih =>
    intro k c hc ha
    cases c with
    | nil => simp at hc; omega
    | cons c cs =>
      simp only [List.cons_append, ind]
      by_cases h : c = a
      · simp only [h, if_true]
        have := ih (k + 1) cs (by simp only [List.length_cons] at hc; omega) (fun a ha' => ha a (by simp [ha']))
        rw [this]
        simp only [List.length_cons, show k + 1 + fixed.length = k + (fixed.length + 1) by omega]
      · simp [h]

theorem ind_leaf (w : ℕ → ℤ → ℕ → K) (fixed : List ℤ) : ∀ (k : ℕ) (c : List ℤ), c.length = fixed.length →
    ind w k fixed [] c = if c = fixed then 1 else 0 := by
  induction fixed with
  | nil => intro k c hc; simp only [List.length_nil, List.length_eq_zero_iff] at hc; subst hc; simp [ind, Spec.weight]
  | cons a fixed ih =>
    intro k c hc
    cases c with
    | nil => simp at hc
    | cons c cs =>
      simp only [ind, List.cons.injEq]
      by_cases h : c = a
      · simp only [h, if_true, true_and]
        exact ih (k + 1) cs (by simpa using hc)
      · simp [h]

/-- value of a partial sum -/
def pval (st : List (List ℤ)) (f : ℕ → K) (w : ℕ → ℤ → ℕ → K) (fixed : List ℤ) (rest : List ℕ) : K :=
  ∑ q : Fin st.length, f q * ind w 0 fixed rest (st.get q)

theorem pval_step (st : List (List ℤ)) (f : ℕ → K) (w : ℕ → ℤ → ℕ → K) (fixed : List ℤ) (e : ℕ) (rest : List ℕ)
    (hlen : ∀ c ∈ st, c.length = fixed.length + 1 + rest.length) (hst : ∀ c ∈ st, ∀ a ∈ c, a = -1 ∨ a = 0 ∨ a = 1) :
    pval st f w fixed (e :: rest) = pval st f w (fixed ++ [-1]) rest * w fixed.length (-1) e +
      pval st f w (fixed ++ [0]) rest * w fixed.length 0 e + pval st f w (fixed ++ [1]) rest * w fixed.length 1 e := by
  unfold pval
  rw [Finset.sum_mul, Finset.sum_mul, Finset.sum_mul, ← Finset.sum_add_distrib, ← Finset.sum_add_distrib]
  refine Finset.sum_congr rfl fun q _ => ?_
  rw [ind_step w fixed e rest 0 _ (hlen _ (List.get_mem st q)) (hst _ (List.get_mem st q)), Nat.zero_add]
  ring

/-- symbol returned for fixed components -/
def atomOf (st : List (List ℤ)) (fixed : List ℤ) : List ℕ → Rhs K
  | [] => match st.findIdx? (· == fixed) with
    | some q => [(1, .pdf q)]
    | none => []
  | e :: rest => [(1, .part fixed (e :: rest))]

/-- sum assigned for fixed components -/
def canon (st : List (List ℤ)) (w : ℕ → ℤ → ℕ → K) (fixed : List ℤ) (e : ℕ) (rest : List ℕ) : Rhs K :=
  ((atomOf st (fixed ++ [-1]) rest).map fun t => (t.1 * w fixed.length (-1) e, t.2)) ++
    ((atomOf st (fixed ++ [0]) rest).map fun t => (t.1 * w fixed.length 0 e, t.2)) ++
    ((atomOf st (fixed ++ [1]) rest).map fun t => (t.1 * w fixed.length 1 e, t.2))

theorem atomOf_val (st : List (List ℤ)) (hnd : st.Nodup) (f : ℕ → K) (w : ℕ → ℤ → ℕ → K) (val : Sym → K)
    (hpdf : ∀ q, val (.pdf q) = f q) (hpart : ∀ fixed rest, val (.part fixed rest) = pval st f w fixed rest)
    (fixed : List ℤ) (rest : List ℕ) (hlen : ∀ c ∈ st, c.length = fixed.length + rest.length) :
    Rhs.eval val (atomOf st fixed rest) = pval st f w fixed rest := by
  cases rest with
  | cons e rest => simp [atomOf, Rhs.eval, hpart]
  | nil =>
    simp only [atomOf]
    have hleaf : pval st f w fixed [] = ∑ q : Fin st.length, f q * (if st.get q = fixed then 1 else 0) := by
      unfold pval
      refine Finset.sum_congr rfl fun q _ => ?_
      rw [ind_leaf w fixed 0 _ (by have := hlen _ (List.get_mem st q); simpa using this)]
    rw [hleaf]
    cases hq : st.findIdx? (· == fixed) with
    | none =>
      simp only [Rhs.eval, List.map_nil, List.sum_nil]
      symm
      apply Finset.sum_eq_zero
      intro q _
      have := (List.findIdx?_eq_none_iff.mp hq) _ (List.get_mem st q)
      have hne : st.get q ≠ fixed := by simpa using this
      simp only [if_neg hne, mul_zero]
    | some i =>
      obtain ⟨hi, h1, _⟩ := List.findIdx?_eq_some_iff_getElem.mp hq
      have hi' : st.get ⟨i, hi⟩ = fixed := by simpa using h1
      rw [Finset.sum_eq_single (⟨i, hi⟩ : Fin st.length)]
      · simp only [hi', if_true, mul_one, Rhs.eval, List.map_cons, List.map_nil, List.sum_cons, List.sum_nil, one_mul, add_zero, hpdf]
      · intro q _ hq'
        have hne : st.get q ≠ fixed := fun e => hq' (hnd.injective_get (by rw [e, hi']))
        simp only [if_neg hne, mul_zero]
      · intro h; exact absurd (Finset.mem_univ _) h

/-- invariant of the dictionary of partial sums -/
structure SumInv (st : List (List ℤ)) (w : ℕ → ℤ → ℕ → K) (val : Sym → K) (d : Asms K) : Prop where
  good : Good val (fun x => ∃ q, x = .pdf q) d
  canonical : ∀ p ∈ d, ∃ fixed e rest, p.1 = .part fixed (e :: rest) ∧ p.2 = canon st w fixed e rest

theorem collect_spec (st : List (List ℤ)) (hnd : st.Nodup) (hst : ∀ c ∈ st, ∀ a ∈ c, a = -1 ∨ a = 0 ∨ a = 1) (f : ℕ → K)
    (w : ℕ → ℤ → ℕ → K) (val : Sym → K)
    (hpdf : ∀ q, val (.pdf q) = f q) (hpart : ∀ fixed rest, val (.part fixed rest) = pval st f w fixed rest) (all : List ℕ)
    (rest : List ℕ) : ∀ (fixed : List ℤ) (s : CSt K), fixed ≠ [] → (∀ c ∈ st, c.length = fixed.length + rest.length) →
      SumInv st w val s.sums →
      (collect st w all fixed rest s).1 = atomOf st fixed rest ∧ (collect st w all fixed rest s).2.eqs = s.eqs ∧
      SumInv st w val (collect st w all fixed rest s).2.sums ∧
      (∀ x ∈ s.sums.map Prod.fst, x ∈ (collect st w all fixed rest s).2.sums.map Prod.fst) ∧
      (∀ t ∈ (atomOf st fixed rest : Rhs K), (∃ q, t.2 = .pdf q) ∨ t.2 ∈ (collect st w all fixed rest s).2.sums.map Prod.fst) := by
  induction rest with
  | nil =>
    intro fixed s _ _ hs
    simp only [collect, atomOf]
    cases st.findIdx? (· == fixed) with
    | none => exact ⟨rfl, rfl, hs, fun _ h => h, fun t ht => absurd ht (by simp)⟩
    | some q =>
      refine ⟨rfl, rfl, hs, fun _ h => h, fun t ht => Or.inl ⟨q, ?_⟩⟩
      rw [List.mem_singleton] at ht; rw [ht]
  | cons e rest ih =>
    intro fixed s hf hlen hs
    have hl : ∀ d : ℤ, ∀ c ∈ st, c.length = (fixed ++ [d]).length + rest.length := by
      intro d c hc
      have := hlen c hc
      simp only [List.length_cons, List.length_append, List.length_nil] at this ⊢; omega
    obtain ⟨a1, b1, c1, d1, e1⟩ := ih (fixed ++ [-1]) s (by simp) (hl _) hs
    obtain ⟨a2, b2, c2, d2, e2⟩ := ih (fixed ++ [0]) _ (by simp) (hl _) c1
    obtain ⟨a3, b3, c3, d3, e3⟩ := ih (fixed ++ [1]) _ (by simp) (hl _) c2
    have hf0 : fixed.length ≠ 0 := fun h => hf (List.length_eq_zero_iff.mp h)
    simp only [collect, if_neg hf0, a1, a2, a3]
    set s1 := (collect st w all (fixed ++ [-1]) rest s).2
    set s2 := (collect st w all (fixed ++ [0]) rest s1).2
    set s3 := (collect st w all (fixed ++ [1]) rest s2).2
    have hcanon : ((atomOf st (fixed ++ [-1]) rest).map fun t => (t.1 * w fixed.length (-1) e, t.2)) ++
        ((atomOf st (fixed ++ [0]) rest).map fun t => (t.1 * w fixed.length 0 e, t.2)) ++
        ((atomOf st (fixed ++ [1]) rest).map fun t => (t.1 * w fixed.length 1 e, t.2)) = canon st w fixed e rest := rfl
    rw [hcanon]
    have hdeps : ∀ t ∈ canon st w fixed e rest, (∃ q, t.2 = .pdf q) ∨ t.2 ∈ s3.sums.map Prod.fst := by
      intro t ht
      simp only [canon, List.mem_append, List.mem_map] at ht
      rcases ht with (⟨t', ht', rfl⟩ | ⟨t', ht', rfl⟩) | ⟨t', ht', rfl⟩
      · exact (e1 t' ht').imp_right fun h => d3 _ (d2 _ h)
      · exact (e2 t' ht').imp_right fun h => d3 _ h
      · exact e3 t' ht'
    have hval : Rhs.eval val (canon st w fixed e rest) = val (.part fixed (e :: rest)) := by
      rw [canon, eval_append, eval_append, eval_scale, eval_scale, eval_scale, hpart,
        atomOf_val st hnd f w val hpdf hpart _ _ (hl _), atomOf_val st hnd f w val hpdf hpart _ _ (hl _),
        atomOf_val st hnd f w val hpdf hpart _ _ (hl _),
        pval_step st f w fixed e rest (fun c hc => by have := hlen c hc; simp only [List.length_cons] at this; omega) hst]
    refine ⟨rfl, by rw [b3, b2, b1], ?_, ?_, ?_⟩
    · by_cases hk : Sym.part fixed (e :: rest) ∈ s3.sums.map Prod.fst
      · rw [setD_same _ _ _ hk]
        · exact c3
        · intro p hp hpk
          obtain ⟨fi, e', r', h1, h2⟩ := c3.canonical p hp
          rw [h1] at hpk
          injection hpk with h3 h4
          injection h4 with h4 h5
          subst h3; subst h4; subst h5
          exact h2
      · rw [setD_new _ _ _ hk]
        refine ⟨c3.good.snoc val _ _ _ _ hdeps hval, ?_⟩
        intro p hp
        rcases List.mem_append.mp hp with hp | hp
        · exact c3.canonical p hp
        · rw [List.mem_singleton] at hp; subst hp; exact ⟨fixed, e, rest, rfl, rfl⟩
    · intro x hx
      rw [setD_keys]
      exact Or.inr (d3 _ (d2 _ (d1 _ hx)))
    · intro t ht
      simp only [atomOf, List.mem_singleton] at ht
      subst ht
      right
      rw [setD_keys]; exact Or.inl rfl

/-- intended values of the symbols -/
def sumVal (st : List (List ℤ)) (f : ℕ → K) (w : ℕ → ℤ → ℕ → K) (exponents : List (List ℕ)) : Sym → K
  | .pdf q => f q
  | .part fixed rest => pval st f w fixed rest
  | .to n => match exponents.find? (fun e => sqName e = n) with
    | some e => Spec.moment st f w e
    | none => 0
  | _ => 0

theorem find_name (exponents : List (List ℕ)) (hs : ∀ e ∈ exponents, ∀ a ∈ e, a < 10) (e : List ℕ) (he : e ∈ exponents) :
    exponents.find? (fun e' => sqName e' = sqName e) = some e := by
  cases hf : exponents.find? (fun e' => sqName e' = sqName e) with
  | none => exact absurd (List.find?_eq_none.mp hf e he) (by simp)
  | some e' =>
    have h1 := List.mem_of_find?_eq_some hf
    have h2 : sqName e' = sqName e := by simpa using List.find?_some hf
    rw [sqName_inj e' e (hs e' h1) (hs e he) h2]

/-- the list of assignments is correct -/
theorem sumChimera_good (st : List (List ℤ)) (hnd : st.Nodup) (D : ℕ) (hD : 0 < D) (hlen : ∀ c ∈ st, c.length = D)
    (hst : ∀ c ∈ st, ∀ a ∈ c, a = -1 ∨ a = 0 ∨ a = 1) (f : ℕ → K) (w : ℕ → ℤ → ℕ → K) (exponents : List (List ℕ))
    (he : ∀ e ∈ exponents, e.length = D) (hs : ∀ e ∈ exponents, ∀ a ∈ e, a < 10) :
    Good (sumVal st f w exponents) (fun x => ∃ q, x = .pdf q) (sumChimera st w exponents) ∧
      ∀ e ∈ exponents, Sym.to (sqName e) ∈ (sumChimera st w exponents).map Prod.fst := by
  set val := sumVal st f w exponents with hval
  have hpdf : ∀ q, val (.pdf q) = f q := fun _ => rfl
  have hpart : ∀ fixed rest, val (.part fixed rest) = pval st f w fixed rest := fun _ _ => rfl
  have key : ∀ (l : List (List ℕ)) (s : CSt K), (∀ e ∈ l, e ∈ exponents) → SumInv st w val s.sums →
      Good val (fun x => (∃ q, x = .pdf q) ∨ x ∈ s.sums.map Prod.fst) s.eqs →
      let s' := l.foldl (fun s e => (collect st w e [] e s).2) s
      SumInv st w val s'.sums ∧ Good val (fun x => (∃ q, x = .pdf q) ∨ x ∈ s'.sums.map Prod.fst) s'.eqs ∧
        (∀ x ∈ s.eqs.map Prod.fst, x ∈ s'.eqs.map Prod.fst) ∧ ∀ e ∈ l, Sym.to (sqName e) ∈ s'.eqs.map Prod.fst := by
    intro l
    induction l with
    | nil => intro s _ h1 h2; exact ⟨h1, h2, fun _ h => h, fun _ h => absurd h (by simp)⟩
    | cons e l ih =>
      intro s hl hs1 hs2
      rw [List.foldl_cons]
      have hee : e ∈ exponents := hl e (by simp)
      have hel := he e hee
      obtain ⟨e0, rest, rfl⟩ : ∃ e0 rest, e = e0 :: rest := by
        cases e with
        | nil => simp at hel; omega
        | cons a b => exact ⟨a, b, rfl⟩
      have hl' : ∀ d : ℤ, ∀ c ∈ st, c.length = ([] ++ [d] : List ℤ).length + rest.length := by
        intro d c hc
        rw [hlen c hc]; simp only [List.length_cons] at hel; simp; omega
      obtain ⟨a1, b1, c1, d1, e1⟩ := collect_spec st hnd hst f w val hpdf hpart (e0 :: rest) rest ([] ++ [-1]) s (by simp) (hl' _) hs1
      obtain ⟨a2, b2, c2, d2, e2⟩ := collect_spec st hnd hst f w val hpdf hpart (e0 :: rest) rest ([] ++ [0]) _ (by simp) (hl' _) c1
      obtain ⟨a3, b3, c3, d3, e3⟩ := collect_spec st hnd hst f w val hpdf hpart (e0 :: rest) rest ([] ++ [1]) _ (by simp) (hl' _) c2
      have hstep : (collect st w (e0 :: rest) [] (e0 :: rest) s).2 =
          { (collect st w (e0 :: rest) ([] ++ [1]) rest (collect st w (e0 :: rest) ([] ++ [0]) rest
              (collect st w (e0 :: rest) ([] ++ [-1]) rest s).2).2).2 with
            eqs := (collect st w (e0 :: rest) ([] ++ [1]) rest (collect st w (e0 :: rest) ([] ++ [0]) rest
              (collect st w (e0 :: rest) ([] ++ [-1]) rest s).2).2).2.eqs ++
                [(.to (sqName (e0 :: rest)), canon st w [] e0 rest)] } := by
        simp only [collect, List.length_nil, if_true, a1, a2, a3, canon]
      set s1 := (collect st w (e0 :: rest) ([] ++ [-1]) rest s).2
      set s2 := (collect st w (e0 :: rest) ([] ++ [0]) rest s1).2
      set s3 := (collect st w (e0 :: rest) ([] ++ [1]) rest s2).2
      have hdeps : ∀ t ∈ canon st w [] e0 rest, (∃ q, t.2 = .pdf q) ∨ t.2 ∈ s3.sums.map Prod.fst := by
        intro t ht
        simp only [canon, List.mem_append, List.mem_map] at ht
        rcases ht with (⟨t', ht', rfl⟩ | ⟨t', ht', rfl⟩) | ⟨t', ht', rfl⟩
        · exact (e1 t' ht').imp_right fun h => d3 _ (d2 _ h)
        · exact (e2 t' ht').imp_right fun h => d3 _ h
        · exact e3 t' ht'
      have hvalto : val (.to (sqName (e0 :: rest))) = pval st f w [] (e0 :: rest) := by
        rw [hval]
        simp only [sumVal]
        rw [find_name exponents hs _ hee]
        rfl
      have hv : Rhs.eval val (canon st w [] e0 rest) = val (.to (sqName (e0 :: rest))) := by
        rw [canon, eval_append, eval_append, eval_scale, eval_scale, eval_scale, hvalto,
          atomOf_val st hnd f w val hpdf hpart _ _ (hl' _), atomOf_val st hnd f w val hpdf hpart _ _ (hl' _),
          atomOf_val st hnd f w val hpdf hpart _ _ (hl' _),
          pval_step st f w [] e0 rest (fun c hc => by rw [hlen c hc, ← hel]; simp; omega) hst]
      have heqs : s3.eqs = s.eqs := by rw [b3, b2, b1]
      have hgood3 : Good val (fun x => (∃ q, x = .pdf q) ∨ x ∈ s3.sums.map Prod.fst)
          (s3.eqs ++ [(.to (sqName (e0 :: rest)), canon st w [] e0 rest)]) := by
        refine Good.snoc val _ _ _ _ ?_ (fun t ht => Or.inl (hdeps t ht)) hv
        rw [heqs]
        exact Good.mono val _ _ _ (fun x hx => hx.imp_right fun h => d3 _ (d2 _ (d1 _ h))) hs2
      rw [hstep]
      obtain ⟨i1, i2, i3, i4⟩ := ih { s3 with eqs := s3.eqs ++ [(.to (sqName (e0 :: rest)), canon st w [] e0 rest)] }
        (fun e h => hl e (by simp [h])) c3 hgood3
      refine ⟨i1, i2, fun x hx => i3 x (by simp only [List.map_append, List.mem_append]; rw [heqs]; exact Or.inl hx), ?_⟩
      intro e he'
      rcases List.mem_cons.mp he' with rfl | h
      · exact i3 _ (by simp)
      · exact i4 e h
  obtain ⟨k1, k2, _, k4⟩ := key exponents { sums := [], eqs := [] } (fun _ h => h)
    ⟨trivial, fun p hp => absurd hp (by simp)⟩ trivial
  refine ⟨Good.append val _ _ _ k1.good k2, fun e h => ?_⟩
  have := k4 e h
  simp only [sumChimera, List.map_append, List.mem_append]
  exact Or.inr this

theorem sumChimera_run (st : List (List ℤ)) (hnd : st.Nodup) (D : ℕ) (hD : 0 < D) (hlen : ∀ c ∈ st, c.length = D)
    (hst : ∀ c ∈ st, ∀ a ∈ c, a = -1 ∨ a = 0 ∨ a = 1) (w : ℕ → ℤ → ℕ → K) (exponents : List (List ℕ))
    (he : ∀ e ∈ exponents, e.length = D) (hs : ∀ e ∈ exponents, ∀ a ∈ e, a < 10) (ρ : Sym → K) (e : List ℕ) (hee : e ∈ exponents) :
    exec (sumChimera st w exponents) ρ (.to (sqName e)) = Spec.moment st (fun q => ρ (.pdf q)) w e := by
  obtain ⟨h1, h2⟩ := sumChimera_good st hnd D hD hlen hst (fun q => ρ (.pdf q)) w exponents he hs
  rw [exec_good _ _ _ ρ h1 (fun x hx => by obtain ⟨q, rfl⟩ := hx; rfl) _ (Or.inr (h2 e hee))]
  simp only [sumVal]
  rw [find_name exponents hs e hee]

/-! ### Binomial expansion -/

theorem shift_congr (v : List K) : ∀ (κ κ' : List ℕ → K) (m : List ℕ), (∀ a, List.Forall₂ (· ≤ ·) a m → κ a = κ' a) →
    Spec.shift v κ m = Spec.shift v κ' m := by
  induction v with
  | nil =>
    intro κ κ' m h
    simp only [Spec.shift]
    exact h m (List.forall₂_same.mpr fun x _ => le_refl x)
  | cons v vs ih =>
    intro κ κ' m h
    cases m with
    | nil => simp only [Spec.shift]; exact h [] List.Forall₂.nil
    | cons m ms =>
      simp only [Spec.shift]
      refine Finset.sum_congr rfl fun a ha => ?_
      rw [ih _ (fun l => κ' (a :: l)) ms fun l hl => h (a :: l) (List.Forall₂.cons (by have := Finset.mem_range.mp ha; omega) hl)]

theorem shift_sum {ι : Type} (v : List K) : ∀ (t : Finset ι) (c : ι → K) (g : ι → List ℕ → K) (m : List ℕ),
    Spec.shift v (fun l => ∑ b ∈ t, c b * g b l) m = ∑ b ∈ t, c b * Spec.shift v (g b) m := by
  induction v with
  | nil => intro t c g m; simp only [Spec.shift]
  | cons v vs ih =>
    intro t c g m
    cases m with
    | nil => simp only [Spec.shift]
    | cons m ms =>
      simp only [Spec.shift]
      rw [Finset.sum_congr rfl fun a _ => by rw [ih t c (fun b l => g b (a :: l)) ms]]
      simp only [Finset.mul_sum]
      rw [Finset.sum_comm]
      refine Finset.sum_congr rfl fun b _ => Finset.sum_congr rfl fun a _ => ?_
      ring

/-- linear functional with given values on the powers -/
noncomputable def functional (κ : ℕ → K) : Polynomial K →ₗ[K] K := Polynomial.lsum fun n => κ n • (LinearMap.id : K →ₗ[K] K)

theorem functional_pow (κ : ℕ → K) (n : ℕ) : functional κ (Polynomial.X ^ n) = κ n := by
  unfold functional
  rw [Polynomial.lsum_apply, ← Polynomial.monomial_one_right_eq_X_pow, Polynomial.sum_monomial_index]
  · simp
  · simp

theorem functional_shift (κ : ℕ → K) (w : K) (n : ℕ) :
    functional κ ((Polynomial.X + Polynomial.C w) ^ n) = ∑ b ∈ Finset.range (n + 1), (n.choose b : K) * w ^ (n - b) * κ b := by
  rw [add_pow, map_sum]
  refine Finset.sum_congr rfl fun b _ => ?_
  have : (Polynomial.X ^ b * Polynomial.C w ^ (n - b) * (n.choose b : Polynomial K)) = ((n.choose b : K) * w ^ (n - b)) • (Polynomial.X ^ b : Polynomial K) := by
    rw [Polynomial.smul_eq_C_mul]
    simp only [map_mul, map_pow, map_natCast]
    ring
  rw [this, map_smul, functional_pow, smul_eq_mul]

theorem shift_one (κ : ℕ → K) (v w : K) (m : ℕ) :
    ∑ a ∈ Finset.range (m + 1), (m.choose a : K) * v ^ (m - a) * ∑ b ∈ Finset.range (a + 1), (a.choose b : K) * w ^ (a - b) * κ b =
      ∑ b ∈ Finset.range (m + 1), (m.choose b : K) * (v + w) ^ (m - b) * κ b := by
  rw [← functional_shift κ (v + w) m]
  have h : (Polynomial.X + Polynomial.C (v + w) : Polynomial K) = (Polynomial.X + Polynomial.C w) + Polynomial.C v := by
    rw [map_add]; ring
  rw [h, add_pow, map_sum]
  refine Finset.sum_congr rfl fun a _ => ?_
  have : ((Polynomial.X + Polynomial.C w) ^ a * Polynomial.C v ^ (m - a) * (m.choose a : Polynomial K)) =
      ((m.choose a : K) * v ^ (m - a)) • ((Polynomial.X + Polynomial.C w) ^ a : Polynomial K) := by
    rw [Polynomial.smul_eq_C_mul]
    simp only [map_mul, map_pow, map_natCast]
    ring
  rw [this, map_smul, functional_shift, smul_eq_mul]

/-- shifts add up -/
theorem shift_shift (vs : List K) : ∀ (ws : List K) (κ : List ℕ → K) (m : List ℕ), vs.length = ws.length →
    Spec.shift vs (fun l => Spec.shift ws κ l) m = Spec.shift (List.zipWith (· + ·) vs ws) κ m := by
  induction vs with
  | nil =>
    intro ws κ m h
    cases ws with
    | nil => simp only [Spec.shift, List.zipWith_nil_left]
    | cons w ws => simp at h
  | cons v vs ih =>
    intro ws κ m h
    cases ws with
    | nil => simp at h
    | cons w ws =>
      cases m with
      | nil => simp only [Spec.shift]; rfl
      | cons m ms =>
        simp only [Spec.shift, List.zipWith_cons_cons]
        rw [← shift_one (fun b => Spec.shift (List.zipWith (· + ·) vs ws) (fun l => κ (b :: l)) ms) v w m]
        refine Finset.sum_congr rfl fun a _ => ?_
        congr 1
        rw [shift_sum vs (Finset.range (a + 1)) (fun b => (a.choose b : K) * w ^ (a - b))
          (fun b l => Spec.shift ws (fun l => κ (b :: l)) l) ms]
        refine Finset.sum_congr rfl fun b _ => ?_
        rw [ih ws _ ms (by simpa using h)]

theorem shift_zero (vs : List K) (hv : ∀ v ∈ vs, v = 0) : ∀ (κ : List ℕ → K) (m : List ℕ), Spec.shift vs κ m = κ m := by
  induction vs with
  | nil => intro κ m; simp only [Spec.shift]
  | cons v vs ih =>
    intro κ m
    cases m with
    | nil => simp only [Spec.shift]
    | cons m ms =>
      simp only [Spec.shift]
      rw [hv v (by simp), Finset.sum_eq_single m]
      · rw [Nat.choose_self, Nat.sub_self, pow_zero, ih (fun v h => hv v (by simp [h]))]; simp
      · intro a ha hne
        have : m - a ≠ 0 := by have := Finset.mem_range.mp ha; omega
        rw [zero_pow this]; simp
      · intro h; simp at h

/-- symbol returned by `_derive` below the top level -/
def batom (fixed : List ℕ) : List ℕ → Rhs K
  | [] => [(1, .frm (sqName fixed))]
  | a :: rest => [(1, .chim fixed (a :: rest))]

/-- sum assigned by `_derive` -/
def bcanon (v : List K) (fixed : List ℕ) (alpha : ℕ) (rest : List ℕ) : Rhs K :=
  (List.range (alpha + 1)).flatMap fun a =>
    (batom (fixed ++ [a]) rest).map fun t => ((alpha.choose a : K) * v.getD fixed.length 0 ^ (alpha - a) * t.1, t.2)

/-- value of a chimera -/
def bval (v : List K) (κ : List Char → K) (fixed rest : List ℕ) : K :=
  Spec.shift (v.drop fixed.length) (fun l => κ (sqName (fixed ++ l))) rest

theorem bval_step (v : List K) (κ : List Char → K) (fixed : List ℕ) (alpha : ℕ) (rest : List ℕ) (h : fixed.length < v.length) :
    bval v κ fixed (alpha :: rest) = ∑ a ∈ Finset.range (alpha + 1), (alpha.choose a : K) * v.getD fixed.length 0 ^ (alpha - a) *
      bval v κ (fixed ++ [a]) rest := by
  unfold bval
  rw [List.drop_eq_getElem_cons h]
  simp only [Spec.shift]
  refine Finset.sum_congr rfl fun a _ => ?_
  rw [List.getD_eq_getElem _ _ h]
  simp only [List.length_append, List.length_cons, List.length_nil, Nat.zero_add, List.append_assoc, List.cons_append, List.nil_append]

theorem eval_flatMap (ρ : Sym → K) (n : ℕ) (g : ℕ → Rhs K) :
    Rhs.eval ρ ((List.range n).flatMap g) = ∑ a ∈ Finset.range n, Rhs.eval ρ (g a) := by
  induction n with
  | zero => simp [Rhs.eval]
  | succ n ih =>
    rw [List.range_succ, List.flatMap_append, eval_append, ih, Finset.sum_range_succ]
    simp

theorem batom_val (v : List K) (κ : List Char → K) (val : Sym → K) (hfrm : ∀ n, val (.frm n) = κ n)
    (hchim : ∀ fixed rest, val (.chim fixed rest) = bval v κ fixed rest) (fixed rest : List ℕ) :
    Rhs.eval val (batom fixed rest : Rhs K) = bval v κ fixed rest := by
  cases rest with
  | nil =>
    simp only [batom, Rhs.eval, List.map_cons, List.map_nil, List.sum_cons, List.sum_nil, hfrm, bval]
    cases v.drop fixed.length <;> simp [Spec.shift]
  | cons a rest => simp [batom, Rhs.eval, hchim]

theorem bcanon_val (v : List K) (κ : List Char → K) (val : Sym → K) (hfrm : ∀ n, val (.frm n) = κ n)
    (hchim : ∀ fixed rest, val (.chim fixed rest) = bval v κ fixed rest) (fixed : List ℕ) (alpha : ℕ) (rest : List ℕ)
    (h : fixed.length < v.length) : Rhs.eval val (bcanon v fixed alpha rest) = bval v κ fixed (alpha :: rest) := by
  rw [bcanon, eval_flatMap, bval_step v κ fixed alpha rest h]
  refine Finset.sum_congr rfl fun a _ => ?_
  rw [eval_scale', batom_val v κ val hfrm hchim]

/-- invariant of the dictionary of chimeras -/
structure BinInv (v : List K) (val : Sym → K) (d : Asms K) : Prop where
  good : Good val (fun x => ∃ n, x = .frm n) d
  canonical : ∀ p ∈ d, ∃ fixed e rest, p.1 = .chim fixed (e :: rest) ∧ p.2 = bcanon v fixed e rest

/-- what `_derive` does at one level -/
def BStep (v : List K) (val : Sym → K) (r : Rhs K) (d : Asms K) (res : Rhs K × Asms K) : Prop :=
  res.1 = r ∧ BinInv v val res.2 ∧ (∀ x ∈ d.map Prod.fst, x ∈ res.2.map Prod.fst) ∧
    (∀ t ∈ r, (∃ n, t.2 = .frm n) ∨ t.2 ∈ res.2.map Prod.fst)

theorem derive_loop (v : List K) (val : Sym → K) (fixed rest : List ℕ) (coef : ℕ → K)
    (ih : ∀ (a : ℕ) (d : Asms K), BinInv v val d → BStep v val (batom (fixed ++ [a]) rest) d (derive v (fixed ++ [a]) rest d))
    (n : ℕ) (d : Asms K) (hd : BinInv v val d) :
    BStep v val ((List.range n).flatMap fun a => (batom (fixed ++ [a]) rest).map fun t => (coef a * t.1, t.2)) d
      ((List.range n).foldl (fun (acc : Rhs K × Asms K) a =>
          let x := derive v (fixed ++ [a]) rest acc.2
          (acc.1 ++ x.1.map (fun t => (coef a * t.1, t.2)), x.2)) ([], d)) := by
  induction n with
  | zero => exact ⟨rfl, hd, fun _ h => h, fun t ht => absurd ht (by simp)⟩
  | succ n ihn =>
    obtain ⟨h1, h2, h3, h4⟩ := ihn
    rw [List.range_succ, List.foldl_append, List.flatMap_append]
    simp only [List.foldl_cons, List.foldl_nil, List.flatMap_cons, List.flatMap_nil, List.append_nil]
    obtain ⟨g1, g2, g3, g4⟩ := ih n _ h2
    refine ⟨by rw [h1, g1], g2, fun x hx => g3 x (h3 x hx), ?_⟩
    intro t ht
    rcases List.mem_append.mp ht with ht | ht
    · exact (h4 t ht).imp_right fun h => g3 _ h
    · obtain ⟨t', ht', rfl⟩ := List.mem_map.mp ht
      exact g4 t' ht'

theorem derive_spec (v : List K) (κ : List Char → K) (val : Sym → K) (hfrm : ∀ n, val (.frm n) = κ n)
    (hchim : ∀ fixed rest, val (.chim fixed rest) = bval v κ fixed rest) (rest : List ℕ) :
    ∀ (fixed : List ℕ) (d : Asms K), fixed ≠ [] → fixed.length + rest.length ≤ v.length → BinInv v val d →
      BStep v val (batom fixed rest) d (derive v fixed rest d) := by
  induction rest with
  | nil =>
    intro fixed d _ _ hd
    refine ⟨rfl, hd, fun _ h => h, fun t ht => Or.inl ?_⟩
    simp only [batom, List.mem_singleton] at ht
    exact ⟨_, by rw [ht]⟩
  | cons alpha rest ih =>
    intro fixed d hf hlen hd
    have hlen' : fixed.length < v.length := by simp only [List.length_cons] at hlen; omega
    rw [derive]
    by_cases hk : Sym.chim fixed (alpha :: rest) ∈ d.map Prod.fst
    · rw [if_pos ⟨hf, hk⟩]
      refine ⟨rfl, hd, fun _ h => h, fun t ht => Or.inr ?_⟩
      simp only [batom, List.mem_singleton] at ht
      rw [ht]; exact hk
    · rw [if_neg fun h => hk h.2]
      obtain ⟨h1, h2, h3, h4⟩ := derive_loop v val fixed rest (fun a => (alpha.choose a : K) * v.getD fixed.length 0 ^ (alpha - a))
        (fun a d hd => ih (fixed ++ [a]) d (by simp) (by simp only [List.length_append, List.length_cons, List.length_nil] at hlen ⊢; omega) hd)
        (alpha + 1) d hd
      simp only [if_neg hf]
      refine ⟨rfl, ?_, fun x hx => (setD_keys _ _ _ _).mpr (Or.inr (h3 x hx)), ?_⟩
      · simp only
        rw [h1]
        have hv := bcanon_val v κ val hfrm hchim fixed alpha rest hlen'
        rw [← hchim] at hv
        by_cases hk' : Sym.chim fixed (alpha :: rest) ∈ ((List.range (alpha + 1)).foldl (fun (acc : Rhs K × Asms K) a =>
            let x := derive v (fixed ++ [a]) rest acc.2
            (acc.1 ++ x.1.map (fun t => ((alpha.choose a : K) * v.getD fixed.length 0 ^ (alpha - a) * t.1, t.2)), x.2)) ([], d)).2.map Prod.fst
        · rw [setD_same _ _ _ hk']
          · exact h2
          · intro p hp hpk
            obtain ⟨fi, e', r', g1, g2⟩ := h2.canonical p hp
            rw [g1] at hpk
            injection hpk with g3 g4
            injection g4 with g4 g5
            subst g3; subst g4; subst g5
            exact g2
        · rw [setD_new _ _ _ hk']
          refine ⟨h2.good.snoc val _ _ _ _ h4 hv, ?_⟩
          intro p hp
          rcases List.mem_append.mp hp with hp | hp
          · exact h2.canonical p hp
          · rw [List.mem_singleton] at hp; subst hp; exact ⟨fixed, alpha, rest, rfl, rfl⟩
      · intro t ht
        simp only [batom, List.mem_singleton] at ht
        subst ht
        right
        rw [setD_keys]; exact Or.inl rfl

/-- intended values of the symbols -/
def binVal (v : List K) (κ : List Char → K) (monos : List (List ℕ)) : Sym → K
  | .frm n => κ n
  | .chim fixed rest => bval v κ fixed rest
  | .to n => match monos.find? (fun e => sqName e = n) with
    | some e => bval v κ [] e
    | none => 0
  | _ => 0

theorem binomial_run (v : List K) (monos : List (List ℕ)) (hlen : ∀ m ∈ monos, m.length ≤ v.length)
    (hs : ∀ m ∈ monos, ∀ a ∈ m, a < 10) : ∃ l, binomialChimera v monos = .ok l ∧ ∀ ρ : Sym → K, ∀ m ∈ monos,
      exec l ρ (.to (sqName m)) = Spec.shift v (fun a => ρ (.frm (sqName a))) m := by
  have hany : monos.any (fun m => v.length < m.length) = false := by
    rw [List.any_eq_false]
    intro m hm
    have := hlen m hm
    simpa using this
  unfold binomialChimera
  rw [hany]
  refine ⟨_, rfl, ?_⟩
  intro ρ m hm
  set κ : List Char → K := fun n => ρ (.frm n) with hκ
  set val := binVal v κ monos with hval
  have hfrm : ∀ n, val (.frm n) = κ n := fun _ => rfl
  have hchim : ∀ fixed rest, val (.chim fixed rest) = bval v κ fixed rest := fun _ _ => rfl
  have key : ∀ (l : List (List ℕ)) (acc : Asms K × Asms K), (∀ e ∈ l, e ∈ monos) → BinInv v val acc.2 →
      Good val (fun x => (∃ n, x = .frm n) ∨ x ∈ acc.2.map Prod.fst) acc.1 →
      let r := l.foldl (fun (acc : Asms K × Asms K) m =>
        let x := derive v [] m acc.2
        (acc.1 ++ [(.to (sqName m), x.1)], x.2)) acc
      BinInv v val r.2 ∧ Good val (fun x => (∃ n, x = .frm n) ∨ x ∈ r.2.map Prod.fst) r.1 ∧
        (∀ x ∈ acc.1.map Prod.fst, x ∈ r.1.map Prod.fst) ∧ ∀ e ∈ l, Sym.to (sqName e) ∈ r.1.map Prod.fst := by
    intro l
    induction l with
    | nil => intro acc _ h1 h2; exact ⟨h1, h2, fun _ h => h, fun _ h => absurd h (by simp)⟩
    | cons e l ih =>
      intro acc hl h1 h2
      rw [List.foldl_cons]
      have hee : e ∈ monos := hl e (by simp)
      have hvalto : val (.to (sqName e)) = bval v κ [] e := by
        rw [hval]
        simp only [binVal]
        rw [find_name monos hs e hee]
      have step : ∃ r, BStep v val r acc.2 (derive v [] e acc.2) ∧ Rhs.eval val r = bval v κ [] e := by
        cases e with
        | nil =>
          refine ⟨batom [] [], ⟨rfl, h1, fun _ h => h, fun t ht => Or.inl ?_⟩, batom_val v κ val hfrm hchim [] []⟩
          simp only [batom, List.mem_singleton] at ht
          exact ⟨_, by rw [ht]⟩
        | cons alpha rest =>
          have hl1 := hlen _ hee
          simp only [List.length_cons] at hl1
          refine ⟨bcanon v [] alpha rest, ?_, bcanon_val v κ val hfrm hchim [] alpha rest (by simp only [List.length_nil]; omega)⟩
          rw [derive, if_neg (fun h => h.1 rfl)]
          simp only [if_true]
          exact derive_loop v val [] rest _ (fun a d hd => derive_spec v κ val hfrm hchim rest ([] ++ [a]) d (by simp)
            (by simp only [List.length_append, List.length_cons, List.length_nil]; omega) hd) (alpha + 1) acc.2 h1
      obtain ⟨r, ⟨g1, g2, g3, g4⟩, g5⟩ := step
      obtain ⟨i1, i2, i3, i4⟩ := ih (acc.1 ++ [(.to (sqName e), (derive v [] e acc.2).1)], (derive v [] e acc.2).2)
        (fun e h => hl e (by simp [h])) g2 (by
          refine Good.snoc val _ _ _ _ (Good.mono val _ _ _ (fun x hx => hx.imp_right (g3 x)) h2) ?_ ?_
          · rw [g1]; exact fun t ht => Or.inl (g4 t ht)
          · rw [g1, g5, hvalto])
      refine ⟨i1, i2, fun x hx => i3 x (by simp only [List.map_append, List.mem_append]; exact Or.inl hx), ?_⟩
      intro e' he'
      rcases List.mem_cons.mp he' with rfl | h
      · exact i3 _ (by simp)
      · exact i4 e' h
  obtain ⟨k1, k2, _, k4⟩ := key monos ([], []) (fun _ h => h) ⟨trivial, fun p hp => absurd hp (by simp)⟩ trivial
  have hgood := Good.append val _ _ _ k1.good k2
  have hmem := k4 m hm
  have h := exec_good val _ _ ρ hgood (fun x hx => by obtain ⟨n, rfl⟩ := hx; rfl) (.to (sqName m))
    (Or.inr (by simp only [List.map_append, List.mem_append]; exact Or.inr hmem))
  refine h.trans ?_
  rw [hval]
  simp only [binVal]
  rw [find_name monos hs m hm]
  rfl

theorem shift_weight (u : ℕ → K) (c : List ℤ) : ∀ (k : ℕ) (m : List ℕ),
    Spec.shift ((List.range' k c.length).map fun i => -u i) (fun l => Spec.weight rawFactor k c l) m =
      Spec.weight (centralFactor u) k c m := by
  induction c with
  | nil => intro k m; cases m <;> simp [Spec.shift, Spec.weight]
  | cons c cs ih =>
    intro k m
    cases m with
    | nil => simp [Spec.shift, Spec.weight, List.range'_succ]
    | cons m ms =>
      simp only [List.length_cons, List.range'_succ, List.map_cons, Spec.shift, Spec.weight]
      have hlin : ∀ a : ℕ, Spec.shift ((List.range' (k + 1) cs.length).map fun i => -u i)
          (fun l => rawFactor k c a * Spec.weight rawFactor (k + 1) cs l) ms =
            rawFactor k c a * Spec.weight (centralFactor u) (k + 1) cs ms := by
        intro a
        have := shift_sum ((List.range' (k + 1) cs.length).map fun i => -u i) ({()} : Finset Unit) (fun _ => rawFactor k c a)
          (fun _ l => Spec.weight rawFactor (k + 1) cs l) ms
        simp only [Finset.sum_singleton] at this
        rw [this, ih]
      rw [Finset.sum_congr rfl fun a _ => by rw [hlin a]]
      simp only [rawFactor, centralFactor, sub_eq_add_neg]
      rw [add_pow, Finset.sum_mul]
      refine Finset.sum_congr rfl fun a _ => ?_
      ring

theorem shift_moment (u : ℕ → K) (st : List (List ℤ)) (D : ℕ) (hlen : ∀ c ∈ st, c.length = D) (f : ℕ → K) (m : List ℕ) :
    Spec.shift ((List.range D).map fun i => -u i) (fun a => Spec.moment st f rawFactor a) m =
      Spec.moment st f (centralFactor u) m := by
  unfold Spec.moment
  have := shift_sum ((List.range D).map fun i => -u i) (Finset.univ : Finset (Fin st.length)) (fun q => f q)
    (fun q l => Spec.weight rawFactor 0 (st.get q) l) m
  rw [this]
  refine Finset.sum_congr rfl fun q _ => ?_
  have h := shift_weight u (st.get q) 0 m
  rw [hlen _ (List.get_mem st q), ← List.range_eq_range'] at h
  rw [h]

/-! ### Property C35 -/

/-- a list of exponents containing everything below its elements -/
def Spec.DownwardClosed (exponents : List (List ℕ)) : Prop := ∀ e ∈ exponents, ∀ a, List.Forall₂ (· ≤ ·) a e → a ∈ exponents

section

variable (st : List (List ℤ)) (D : ℕ) (exponents : List (List ℕ))

/-- C35, raw moments: running the generated assignments gives `Σ_q f_q Π_i c_{q,i}^{e_i}` for every requested tuple, from any state -/
theorem C35_raw (hD : 0 < D) (hnd : st.Nodup) (hlen : ∀ c ∈ st, c.length = D) (hst : ∀ c ∈ st, ∀ a ∈ c, a = -1 ∨ a = 0 ∨ a = 1)
    (he : ∀ e ∈ exponents, e.length = D) (hs : ∀ e ∈ exponents, ∀ a ∈ e, a < 10) (ρ : Sym → K) (e : List ℕ) (hee : e ∈ exponents) :
    exec (sumChimera st rawFactor exponents) ρ (.to (sqName e)) =
      ∑ q : Fin st.length, ρ (.pdf q) * Spec.weight (fun _ (d : ℤ) e => (d : K) ^ e) 0 (st.get q) e :=
  sumChimera_run st hnd D hD hlen hst rawFactor exponents he hs ρ e hee

/-- C35, central moments by direct summation -/
theorem C35_fast_central (hD : 0 < D) (hnd : st.Nodup) (hlen : ∀ c ∈ st, c.length = D)
    (hst : ∀ c ∈ st, ∀ a ∈ c, a = -1 ∨ a = 0 ∨ a = 1) (he : ∀ e ∈ exponents, e.length = D) (hs : ∀ e ∈ exponents, ∀ a ∈ e, a < 10)
    (u : ℕ → K) (ρ : Sym → K) (e : List ℕ) (hee : e ∈ exponents) :
    exec (sumChimera st (centralFactor u) exponents) ρ (.to (sqName e)) =
      ∑ q : Fin st.length, ρ (.pdf q) * Spec.weight (fun i (d : ℤ) e => ((d : K) - u i) ^ e) 0 (st.get q) e :=
  sumChimera_run st hnd D hD hlen hst (centralFactor u) exponents he hs ρ e hee

/-- C35, binomial chimera: nested binomial sums of the given values -/
theorem C35_binomial (v : List K) (hlen : ∀ m ∈ exponents, m.length ≤ v.length) (hs : ∀ m ∈ exponents, ∀ a ∈ m, a < 10) :
    ∃ l, binomialChimera v exponents = .ok l ∧ ∀ ρ : Sym → K, ∀ m ∈ exponents,
      exec l ρ (.to (sqName m)) = Spec.shift v (fun a => ρ (.frm (sqName a))) m :=
  binomial_run v exponents hlen hs

/-- C35, raw summation followed by the binomial chimera with `-u` (`BinomialChimeraTransform.forward_transform`) gives the central
moments about `u`, the same values as the direct summation -/
theorem C35_central (hD : 0 < D) (hnd : st.Nodup) (hlen : ∀ c ∈ st, c.length = D) (hst : ∀ c ∈ st, ∀ a ∈ c, a = -1 ∨ a = 0 ∨ a = 1)
    (he : ∀ e ∈ exponents, e.length = D) (hs : ∀ e ∈ exponents, ∀ a ∈ e, a < 10) (hdc : Spec.DownwardClosed exponents) (u : ℕ → K) :
    ∃ l, binomialChimera ((List.range D).map fun i => -u i) exponents = .ok l ∧
      ∀ ρ ρ' : Sym → K, (∀ n, ρ' (.frm n) = exec (sumChimera st rawFactor exponents) ρ (.to n)) → ∀ m ∈ exponents,
        exec l ρ' (.to (sqName m)) =
          ∑ q : Fin st.length, ρ (.pdf q) * Spec.weight (fun i (d : ℤ) e => ((d : K) - u i) ^ e) 0 (st.get q) m := by
  obtain ⟨l, h1, h2⟩ := binomial_run ((List.range D).map fun i => -u i) exponents
    (fun m hm => by rw [he m hm]; simp) hs
  refine ⟨l, h1, fun ρ ρ' hρ m hm => ?_⟩
  rw [h2 ρ' m hm, shift_congr _ _ (fun a => Spec.moment st (fun q => ρ (.pdf q)) rawFactor a) m
    fun a ha => by rw [hρ]; exact sumChimera_run st hnd D hD hlen hst rawFactor exponents he hs ρ a (hdc m hm a ha)]
  exact shift_moment u st D hlen _ m

/-- C35, round trip: the binomial chimera with `v` undoes the one with `-v` (and vice versa), for arbitrary values -/
theorem C35_roundtrip (hs : ∀ e ∈ exponents, ∀ a ∈ e, a < 10) (hdc : Spec.DownwardClosed exponents) (v : List K)
    (hlen : ∀ m ∈ exponents, m.length ≤ v.length) :
    ∃ l l', binomialChimera (v.map fun x => -x) exponents = .ok l ∧ binomialChimera v exponents = .ok l' ∧
      ∀ ρ ρ' : Sym → K, (∀ n, ρ' (.frm n) = exec l ρ (.to n)) → ∀ m ∈ exponents,
        exec l' ρ' (.to (sqName m)) = ρ (.frm (sqName m)) := by
  obtain ⟨l, h1, h2⟩ := binomial_run (v.map fun x => -x) exponents (fun m hm => by rw [List.length_map]; exact hlen m hm) hs
  obtain ⟨l', h1', h2'⟩ := binomial_run v exponents hlen hs
  refine ⟨l, l', h1, h1', fun ρ ρ' hρ m hm => ?_⟩
  rw [h2' ρ' m hm, shift_congr _ _ (fun a => Spec.shift (v.map fun x => -x) (fun b => ρ (.frm (sqName b))) a) m
    fun a ha => by rw [hρ, h2 ρ a (hdc m hm a ha)]]
  rw [shift_shift _ _ _ _ (by rw [List.length_map]), shift_zero]
  intro x hx
  rw [List.zipWith_map_right, List.zipWith_self] at hx
  obtain ⟨y, _, rfl⟩ := List.mem_map.mp hx
  exact add_neg_cancel y

end

/-- tuples below a tuple -/
def below : List ℕ → List (List ℕ)
  | [] => [[]]
  | e :: es => (List.range (e + 1)).flatMap fun a => (below es).map (a :: ·)

theorem mem_below (a e : List ℕ) (h : List.Forall₂ (· ≤ ·) a e) : a ∈ below e := by
  induction h with
  | nil => simp [below]
  | cons h _ ih =>
    simp only [below, List.mem_flatMap, List.mem_range, List.mem_map]
    exact ⟨_, by omega, _, ih, rfl⟩

theorem downwardClosed_of_check (l : List (List ℕ)) (h : l.all (fun e => (below e).all (· ∈ l)) = true) : Spec.DownwardClosed l := by
  intro e he a ha
  have := List.all_eq_true.mp (List.all_eq_true.mp h e he) a (mem_below a e ha)
  simpa using this

/-- C35, the monomials of the default moment sets meet the hypotheses of the transforms, in each dimension -/
theorem C35_default_sets (D Q : ℕ) (polys : List PExpr) (h : defaultMomentSet D Q = some polys) :
    Spec.DownwardClosed (extractMonomials D polys) ∧ (∀ e ∈ extractMonomials D polys, e.length = D) ∧
      ∀ e ∈ extractMonomials D polys, ∀ a ∈ e, a < 10 := by
  have key : ∀ D Q, (defaultMomentSet D Q).all (fun polys =>
      ((extractMonomials D polys).all fun e => (below e).all (· ∈ extractMonomials D polys)) &&
      ((extractMonomials D polys).all fun e => e.length == D) &&
      ((extractMonomials D polys).all fun e => e.all (· < 10))) = true := by
    intro D Q
    by_cases h1 : D = 2 ∧ Q = 9
    · obtain ⟨rfl, rfl⟩ := h1; decide +kernel
    by_cases h2 : D = 3 ∧ Q = 27
    · obtain ⟨rfl, rfl⟩ := h2; decide +kernel
    by_cases h3 : D = 3 ∧ Q = 19
    · obtain ⟨rfl, rfl⟩ := h3; decide +kernel
    by_cases h4 : D = 3 ∧ Q = 15
    · obtain ⟨rfl, rfl⟩ := h4; decide +kernel
    by_cases h5 : D = 3 ∧ Q = 7
    · obtain ⟨rfl, rfl⟩ := h5; decide +kernel
    simp only [defaultMomentSet, if_neg h1, if_neg h2, if_neg h3, if_neg h4, if_neg h5, Option.all_none]
  have := key D Q
  rw [h] at this
  simp only [Option.all_some, Bool.and_eq_true] at this
  refine ⟨downwardClosed_of_check _ this.1.1, fun e he => ?_, fun e he a ha => ?_⟩
  · simpa using List.all_eq_true.mp this.1.2 e he
  · simpa using List.all_eq_true.mp (List.all_eq_true.mp this.2 e he) a ha

/-- hypotheses are satisfiable: D1Q3 and its default exponents -/
example : Spec.DownwardClosed [[0], [1], [2]] ∧ ([[0], [1], [-1]] : List (List ℤ)).Nodup := by
  refine ⟨?_, by decide⟩
  intro e he a ha
  have hl := ha.length_eq
  simp only [List.mem_cons, List.not_mem_nil, or_false] at he ⊢
  rcases he with rfl | rfl | rfl <;> cases ha with
  | cons h h' => cases h' with
    | nil => simp only [List.cons.injEq, and_true]; omega

/-- value for D2Q5 -/
example : exec (sumChimera (K := ℚ) [[0, 0], [0, 1], [0, -1], [-1, 0], [1, 0]] rawFactor [[0, 0], [1, 0], [0, 2]])
    (fun s => match s with | .pdf q => (q + 1 : ℚ) | _ => 0) (.to (sqName [0, 2])) = 5 := by decide +kernel

/-- C35, names of exponents with two digits collide: the moment (1, 10) gets the value of the moment (11, 0) -/
theorem C35_name_collision :
    let st : List (List ℤ) := [[0, 0], [1, 0], [1, -1]]
    let ρ : Sym → ℚ := fun s => match s with | .pdf 1 => 1 | .pdf 2 => 1 | _ => 0
    sqName [1, 10] = sqName [11, 0] ∧
      exec (sumChimera (K := ℚ) st rawFactor [[1, 10], [11, 0]]) ρ (.to (sqName [1, 10])) = 2 ∧
      Spec.moment st (fun q => ρ (.pdf q)) rawFactor [1, 10] = 1 := by
  refine ⟨by decide +kernel, by decide +kernel, ?_⟩
  simp only [Spec.moment, Fin.sum_univ_succ]
  decide +kernel

/-- C35, velocities beyond ±1 are dropped without an error: the density of the five-velocity set in 1D omits two populations -/
theorem C35_far_velocities_dropped :
    exec (sumChimera (K := ℚ) [[0], [1], [-1], [2], [-2]] rawFactor [[0]]) (fun _ => 1) (.to (sqName [0])) = 3 := by decide +kernel

/-- C35, not downward closed: the shifted second moment reads the first moment, which nobody assigned -/
theorem C35_needs_lower_exponents : ∃ l, binomialChimera (K := ℚ) [1] [[2]] = .ok l ∧
    Sym.frm (sqName [1]) ∈ l.flatMap (fun p => p.2.map Prod.snd) ∧
    Sym.to (sqName [1]) ∉ (sumChimera (K := ℚ) [[0], [1], [-1]] rawFactor [[2]]).map Prod.fst :=
  ⟨_, rfl, by decide +kernel, by decide +kernel⟩

/-- C35, tuples with three entries and a velocity with two components raise `IndexError` -/
theorem C35_tuple_too_long : binomialChimera (K := ℚ) [1, 1] [[1, 0, 0]] = .error .indexError := rfl

end Chimera

end Lbm
