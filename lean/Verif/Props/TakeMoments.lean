import Verif.Spec.TakeMoments
import Mathlib.Tactic.Ring
import Mathlib.Tactic.FinCases
import Mathlib.Tactic.LinearCombination
import Mathlib.Algebra.BigOperators.Ring.Finset
import Mathlib.Algebra.Algebra.Rat
import Mathlib.Algebra.Module.BigOperators
import Mathlib.Algebra.BigOperators.Fin
import Mathlib.Algebra.Polynomial.Derivative
import Mathlib.Algebra.Polynomial.AlgebraMap

/-!
# C112: moments of symbolic equations
-/

namespace Lbm
namespace TakeMoments

open Spec

variable {R ι : Type}

/-! ### The loop over the factors -/

/-- the populations in a product have known names and superscripts, and derivatives are taken of populations only -/
def Known (names : List (String × String)) (maxExpansion : ℕ) (l : List (Factor R ι)) : Prop :=
  ∀ x ∈ l, match x with
    | .diff _ (.pdf n s) => (∃ p ∈ names, p.1 = n) ∧ s < maxExpansion
    | .diff _ (.other _) => False
    | .sym (.pdf n s) => (∃ p ∈ names, p.1 = n) ∧ s < maxExpansion
    | _ => True

/-- does the factor contain a population? -/
def Factor.hasPdf : Factor R ι → Bool
  | .diff _ (.pdf _ _) => true
  | .sym (.pdf _ _) => true
  | _ => false

theorem determineIndex_known {names : List (String × String)} {M : ℕ} {n : String} {s : ℕ} (h : ∃ p ∈ names, p.1 = n) (hs : s < M) :
    ∃ i p, names[i]? = some p ∧ p.1 = n ∧ determineIndex (R := R) names M (.pdf n s) = some (i, s) := by
  obtain ⟨p, hp, hn⟩ := h
  have hex : ∃ x ∈ names, (fun p : String × String => p.1 == n) x = true := ⟨p, hp, by simp [hn]⟩
  rcases hi : names.findIdx? (fun p => p.1 == n) with _ | i
  · rw [List.findIdx?_eq_none_iff] at hi
    obtain ⟨x, hx, hx2⟩ := hex
    have := hi x hx
    simp_all
  · obtain ⟨hlt, hb, -⟩ := List.findIdx?_eq_some_iff_getElem.1 hi
    refine ⟨i, names[i], List.getElem?_eq_getElem hlt, by simpa using hb, ?_⟩
    show (if s < M then _ else _) = _
    rw [if_pos hs, hi]; rfl

section
variable {K A Q : Type} [Field K] [CommRing A] [Algebra K A] (v : Meaning R ι K A Q)

/-- the value of the variables of the loop -/
def stateValue (names : List (String × String)) (q : Q) (st : State R ι) : A :=
  (st.rest.map fun | .other r => v.other r | .pdf _ _ => 0).prod * ((st.velocities.map fun i => v.c q i).prod •
    match st.index with
    | none => 1
    | some (i, s) => v.derivatives (st.derivative.getD []) (v.f (names.getD i ("", "")).1 s q))

/-- a good state: without population there is no derivative, and the position is in the list -/
def Good (names : List (String × String)) (st : State R ι) : Prop :=
  (st.index = none → st.derivative = none) ∧ ∀ i s, st.index = some (i, s) → i < names.length

theorem step_spec (names : List (String × String)) (M : ℕ) (st : State R ι) (x : Factor R ι) (hk : Known names M [x])
    (hg : Good names st) :
    (st.index.isSome ∧ x.hasPdf = true → step names M st x = .error .assertion) ∧
    (¬ (st.index.isSome ∧ x.hasPdf = true) → ∃ st', step names M st x = .ok st' ∧ Good names st' ∧
      (st'.index.isSome ↔ st.index.isSome ∨ x.hasPdf = true) ∧
      ∀ q, stateValue v names q st' = stateValue v names q st * v.factor q x) := by
  have hx := hk x (by simp)
  cases x with
  | vel i =>
    refine ⟨fun h => by simp [Factor.hasPdf] at h, fun _ => ⟨_, rfl, hg, by simp [Factor.hasPdf], fun q => ?_⟩⟩
    simp only [stateValue, List.map_append, List.prod_append, List.map_cons, List.map_nil, List.prod_cons, List.prod_nil, mul_one,
      Meaning.factor, Algebra.smul_def, map_mul]
    ring
  | diff l a =>
    cases a with
    | other r => exact hx.elim
    | pdf n s =>
      obtain ⟨i, p, hi, hp, hd⟩ := determineIndex_known (R := R) hx.1 hx.2
      refine ⟨fun h => by simp [step, h.1], fun h => ?_⟩
      have hn : st.index = none := by
        simpa [Factor.hasPdf, Option.isSome_iff_ne_none] using h
      refine ⟨{ st with index := some (i, s), derivative := some l }, by simp [step, hn, hd], ⟨by simp, ?_⟩,
        by simp [Factor.hasPdf], fun q => ?_⟩
      · intro i' s' he
        simp only [Option.some.injEq, Prod.mk.injEq] at he
        obtain ⟨rfl, -⟩ := he
        exact (List.getElem?_eq_some_iff.1 hi).1
      · simp only [stateValue, hn, Option.getD_some, Meaning.factor, Meaning.arg, List.getD_eq_getElem?_getD, hi, hp,
          Algebra.smul_def]
        ring
  | sym a =>
    cases a with
    | other r =>
      refine ⟨fun h => by simp [Factor.hasPdf] at h, fun _ => ⟨_, rfl, hg, by simp [Factor.hasPdf], fun q => ?_⟩⟩
      simp only [stateValue, List.map_append, List.prod_append, List.map_cons, List.map_nil, List.prod_cons, List.prod_nil, mul_one,
        Meaning.factor, Meaning.arg]
      ring
    | pdf n s =>
      obtain ⟨i, p, hi, hp, hd⟩ := determineIndex_known (R := R) hx.1 hx.2
      refine ⟨fun h => by simp [step, hd, h.1], fun h => ?_⟩
      have hn : st.index = none := by
        simpa [Factor.hasPdf, Option.isSome_iff_ne_none] using h
      refine ⟨{ st with index := some (i, s) }, by simp [step, hn, hd], ⟨by simp, ?_⟩, by simp [Factor.hasPdf], fun q => ?_⟩
      · intro i' s' he
        simp only [Option.some.injEq, Prod.mk.injEq] at he
        obtain ⟨rfl, -⟩ := he
        exact (List.getElem?_eq_some_iff.1 hi).1
      · simp only [stateValue, hn, hg.1 hn, Option.getD_none, Meaning.derivatives, List.foldr_nil, Meaning.factor, Meaning.arg,
          List.getD_eq_getElem?_getD, hi, Option.getD_some, hp, Algebra.smul_def]
        ring

/-- number of factors with a population -/
def pdfs (l : List (Factor R ι)) : ℕ := l.countP Factor.hasPdf

theorem fold_spec (names : List (String × String)) (M : ℕ) (l : List (Factor R ι)) (hk : Known names M l) (st : State R ι)
    (hg : Good names st) :
    (1 < pdfs l + (if st.index.isSome then 1 else 0) → l.foldlM (step names M) st = .error .assertion) ∧
    (pdfs l + (if st.index.isSome then 1 else 0) ≤ 1 → ∃ st', l.foldlM (step names M) st = .ok st' ∧ Good names st' ∧
      (st'.index.isSome ↔ pdfs l + (if st.index.isSome then 1 else 0) = 1) ∧
      ∀ q, stateValue v names q st' = stateValue v names q st * v.product q l) := by
  induction l generalizing st with
  | nil =>
    refine ⟨fun h => ?_, fun _ => ⟨st, rfl, hg, ?_, fun q => by simp [Meaning.product]⟩⟩
    · exfalso; revert h; unfold pdfs; split_ifs <;> simp
    · cases st.index <;> simp [pdfs]
  | cons x l ih =>
    obtain ⟨h1, h2⟩ := step_spec v names M st x (fun y hy => hk y (by simp at hy; simp [hy])) hg
    have hk' : Known names M l := fun y hy => hk y (by simp [hy])
    have hc : pdfs (x :: l) = pdfs l + if x.hasPdf then 1 else 0 := by unfold pdfs; rw [List.countP_cons]
    by_cases hb : st.index.isSome ∧ x.hasPdf = true
    · refine ⟨fun _ => ?_, fun h => ?_⟩
      · rw [List.foldlM_cons, h1 hb]; rfl
      · exfalso; rw [hc, if_pos hb.1, if_pos hb.2] at h; omega
    · obtain ⟨st1, e1, g1, i1, v1⟩ := h2 hb
      obtain ⟨k1, k2⟩ := ih hk' st1 g1
      have hcount : pdfs (x :: l) + (if st.index.isSome then 1 else 0) = pdfs l + if st1.index.isSome then 1 else 0 := by
        rw [hc]
        by_cases p1 : st.index.isSome = true <;> by_cases p2 : x.hasPdf = true <;> simp_all
      rw [hcount, List.foldlM_cons, e1]
      refine ⟨fun h => k1 h, fun h => ?_⟩
      obtain ⟨st2, e2, g2, i2, v2⟩ := k2 h
      refine ⟨st2, e2, g2, i2, fun q => ?_⟩
      rw [v2, v1]
      simp only [Meaning.product, List.map_cons, List.prod_cons]
      ring

/-! ### Products -/

theorem derivatives_sum [Fintype Q] (l : List ι) (k : Q → K) (g : Q → A) :
    v.derivatives l (∑ q, k q • g q) = ∑ q, k q • v.derivatives l (g q) := by
  induction l with
  | nil => rfl
  | cons i l ih =>
    show v.d i (v.derivatives l _) = _
    rw [ih, map_sum]
    exact Finset.sum_congr rfl fun q _ => map_smul _ _ _

theorem prod_count (l : List (Fin 3)) (c : Fin 3 → K) : (l.map c).prod = ∏ i, c i ^ momentTuple l i := by
  induction l with
  | nil => simp [momentTuple]
  | cons a l ih =>
    rw [List.map_cons, List.prod_cons, ih]
    have : ∀ i, c i ^ momentTuple (a :: l) i = (if i = a then c i else 1) * c i ^ momentTuple l i := by
      intro i
      unfold momentTuple
      rw [List.count_cons]
      by_cases h : i = a
      · subst h; simp [pow_succ]; ring
      · have h' : a ≠ i := fun e => h e.symm
        simp [h, h']
    simp only [this, Finset.prod_mul_distrib]
    rw [Finset.prod_ite_eq' Finset.univ a]
    simp

theorem nonAliased_pow (m : Fin 3 → ℕ) (i : Fin 3) (c : K) (hc : c = -1 ∨ c = 0 ∨ c = 1) : c ^ nonAliased m i = c ^ m i := by
  have e : nonAliased m i = if m i > 2 then 2 - m i % 2 else m i := by
    unfold nonAliased nonAliasedMoment
    simp only [List.getD_eq_getElem?_getD, List.getElem?_map]
    fin_cases i <;> simp
  rw [e]
  split
  · rename_i h
    rcases Nat.mod_two_eq_zero_or_one (m i) with h2 | h2
    · obtain ⟨k, hk⟩ := Nat.dvd_of_mod_eq_zero h2
      have : k ≠ 0 := by omega
      rw [h2, hk, pow_mul]
      rcases hc with rfl | rfl | rfl <;> simp [this]
    · obtain ⟨k, hk⟩ : ∃ k, m i = 2 * k + 1 := ⟨m i / 2, by omega⟩
      have : k ≠ 0 := by omega
      rw [h2, hk, pow_succ c (2 * k), pow_mul, show 2 - 1 = 1 from rfl, pow_one]
      rcases hc with rfl | rfl | rfl <;> simp [this]
  · rfl

/-- the names of the moments have the moments of the populations as values -/
def Agrees [Fintype Q] (names : List (String × String)) (μ : String → (Fin 3 → ℕ) → ℕ → A) : Prop :=
  ∀ p ∈ names, ∀ m s, μ p.2 m s = v.moment p.1 m s

/-- C112. A product with exactly one population: the result is the sum over the directions. -/
theorem C112_product [Fintype Q] (names : List (String × String)) (M : ℕ) (aliasing : Bool)
    (ha : aliasing = true → ∀ q i, v.c q i = -1 ∨ v.c q i = 0 ∨ v.c q i = 1) (μ : String → (Fin 3 → ℕ) → ℕ → A)
    (hμ : Agrees v names μ) (l : List (Factor R ι)) (hk : Known names M l) (h1 : pdfs l = 1) :
    ∃ t, handleProduct names M aliasing l = .ok t ∧ v.term μ t = ∑ q, v.product q l := by
  obtain ⟨st, e, g, i1, val⟩ := (fold_spec v names M l hk {} ⟨fun _ => rfl, fun i s h => by cases h⟩).2 (by simp [h1])
  have hs : st.index.isSome := i1.2 (by simp [h1])
  obtain ⟨⟨i, s⟩, hi⟩ := Option.isSome_iff_exists.1 hs
  refine ⟨_, by unfold handleProduct; rw [e]; simp only [bind, Except.bind, hi]; rfl, ?_⟩
  have hlt := g.2 i s hi
  have hmem : names.getD i ("", "") ∈ names := by
    rw [List.getD_eq_getElem?_getD, List.getElem?_eq_getElem hlt]; exact List.getElem_mem _
  have hv : ∀ q, v.product q l = stateValue v names q st := by
    intro q
    rw [val q]
    simp [stateValue]
  simp only [hv, stateValue, hi]
  rw [← Finset.mul_sum]
  unfold Meaning.term
  congr 1
  rw [hμ _ hmem]
  unfold Meaning.moment
  rw [derivatives_sum]
  refine Finset.sum_congr rfl fun q _ => ?_
  rw [prod_count st.velocities (fun i => v.c q i)]
  congr 1
  refine Finset.prod_congr rfl fun j _ => ?_
  cases aliasing
  · rfl
  · exact nonAliased_pow _ _ _ (ha rfl q j)

end

/-- C112. The exceptions: two populations are an `AssertionError`, none is an `AttributeError`. -/
theorem C112_errors (names : List (String × String)) (M : ℕ) (aliasing : Bool) (l : List (Factor R ι)) (hk : Known names M l) :
    (1 < pdfs l → handleProduct names M aliasing l = .error .assertion) ∧
    (pdfs l = 0 → handleProduct names M aliasing l = .error .attributeError) := by
  have key := fold_spec (K := ℚ) (A := ℚ) (Q := Unit) ⟨fun _ => 0, fun _ _ => 0, fun _ _ _ => 0, fun _ => 0⟩ names M l hk {}
    ⟨fun _ => rfl, fun i s h => by cases h⟩
  refine ⟨fun h => ?_, fun h => ?_⟩
  · unfold handleProduct
    rw [key.1 (by simpa using h)]; rfl
  · obtain ⟨st, e, -, i1, -⟩ := key.2 (by simp [h])
    have hn : st.index = none := by
      by_contra hne
      have := i1.1 (Option.isSome_iff_ne_none.2 hne)
      simp [h] at this
    unfold handleProduct
    rw [e]
    simp only [bind, Except.bind, hn]

section
variable {K A Q : Type} [Field K] [CommRing A] [Algebra K A] (v : Meaning R ι K A Q)

/-- the products of an equation, if it is a product or a sum -/
def Eqn.products : Eqn R ι → Option (List (List (Factor R ι)))
  | .mul l => some [l]
  | .add ts => some ts
  | .other _ => none

/-- C112. An equation that is linear in the populations: `take_moments` returns its sum over the directions, with the symbols of
moments in place of the sums. -/
theorem C112_moments [Fintype Q] (names : List (String × String)) (M : ℕ) (aliasing : Bool)
    (ha : aliasing = true → ∀ q i, v.c q i = -1 ∨ v.c q i = 0 ∨ v.c q i = 1) (μ : String → (Fin 3 → ℕ) → ℕ → A)
    (hμ : Agrees v names μ) (e : Eqn R ι) (ps : List (List (Factor R ι))) (he : e.products = some ps)
    (hk : ∀ l ∈ ps, Known names M l ∧ pdfs l = 1) :
    ∃ ts, takeMoments names M aliasing e = .ok ts ∧ (ts.map (v.term μ)).sum = ∑ q, v.eqn q e := by
  cases e with
  | other x => cases he
  | mul l =>
    obtain rfl := Option.some.inj he
    obtain ⟨h1, h2⟩ := hk l (by simp)
    obtain ⟨t, ht, hv⟩ := C112_product v names M aliasing ha μ hμ l h1 h2
    exact ⟨[t], by simp [takeMoments, ht, Except.map], by simpa [Meaning.eqn] using hv⟩
  | add ts =>
    obtain rfl := Option.some.inj he
    clear he
    show ∃ rs, ts.mapM (handleProduct names M aliasing) = .ok rs ∧ _ = ∑ q, (ts.map (v.product q)).sum
    induction ts with
    | nil => exact ⟨[], rfl, by simp⟩
    | cons l ts ih =>
      obtain ⟨h1, h2⟩ := hk l (by simp)
      obtain ⟨t, ht, hv⟩ := C112_product v names M aliasing ha μ hμ l h1 h2
      obtain ⟨rs, hr, hs⟩ := ih fun l hl => hk l (by simp [hl])
      refine ⟨t :: rs, ?_, ?_⟩
      · rw [List.mapM_cons, ht, hr]; rfl
      · simp only [List.map_cons, List.sum_cons, Finset.sum_add_distrib, hv, hs]

end

/-! ### Where the equation is not linear in known populations -/

/-- C112. An equation that is a single symbol or derivative, or zero, is rejected although it has moments. -/
theorem C112_atom_rejected (names : List (String × String)) (M : ℕ) (aliasing : Bool) (x : Option (Factor R ι)) :
    takeMoments names M aliasing (.other x) = .error .assertion := rfl

/-- C112. Populations of the order `max_expansion` or higher are not recognised. -/
theorem C112_order_unknown (names : List (String × String)) (M : ℕ) (aliasing : Bool) (n : String) (s : ℕ) (hs : M ≤ s) (i : Fin 3) :
    takeMoments (R := R) (ι := ι) names M aliasing (.mul [.vel i, .sym (.pdf n s)]) = .error .attributeError := by
  have hd : determineIndex (R := R) names M (.pdf n s) = none := by
    show (if s < M then _ else _) = _; rw [if_neg (by omega)]
  simp [takeMoments, handleProduct, List.foldlM, step, hd, bind, Except.bind, pure, Except.pure, Except.map]

/-- C112. The derivative of something else in front of a population is turned into a derivative of the moment. -/
theorem C112_other_derivative (names : List (String × String)) (M : ℕ) (n m : String) (s : ℕ) (hs : s < M) (i : ι) (r : R) :
    takeMoments ((n, m) :: names) M false (.mul [.diff [i] (.other r), .sym (.pdf n s)]) =
      .ok [⟨[], [i], m, fun _ => 0, s⟩] := by
  have hd : determineIndex (R := R) ((n, m) :: names) M (.pdf n s) = some (0, s) := by
    show (if s < M then _ else _) = _; rw [if_pos hs]; simp [List.findIdx?_cons]
  have h0 : determineIndex (R := R) ((n, m) :: names) M (.other r) = none := rfl
  have ht : momentTuple [] = fun _ => 0 := rfl
  simp [takeMoments, handleProduct, List.foldlM, step, hd, h0, ht, bind, Except.bind, pure, Except.pure, Except.map]

/-! ### A concrete equation -/

/-- the names of `chapman_enskog.py:339` -/
def defaultNames : List (String × String) := [("f", "\\Pi"), ("\\Omega f", "\\Upsilon")]

/-- `c_0 * x * Diff(Diff(f^{(1)}, 0), 2) + c_1 * c_1 * c_1 * \\Omega f^{(0)}` -/
def exampleEqn : Eqn Unit (Fin 3) :=
  .add [[.vel 0, .sym (.other ()), .diff [2, 0] (.pdf "f" 1)], [.vel 1, .vel 1, .sym (.pdf "\\Omega f" 0), .vel 1]]

example : takeMoments defaultNames 5 false exampleEqn =
    .ok [⟨[.other ()], [2, 0], "\\Pi", momentTuple [0], 1⟩, ⟨[], [], "\\Upsilon", momentTuple [1, 1, 1], 0⟩] := rfl

/-- two directions and populations that are polynomials -/
noncomputable def exampleMeaning : Meaning Unit (Fin 3) ℚ (Polynomial ℚ) (Fin 2) where
  d := fun _ => Polynomial.derivative
  c := fun q _ => if q = 0 then 1 else -1
  f := fun n s q => Polynomial.X ^ (n.length + s + q + 1)
  other := fun _ => Polynomial.X

example : ∃ ts, takeMoments defaultNames 5 true exampleEqn = .ok ts ∧
    (ts.map (exampleMeaning.term fun n => exampleMeaning.moment (if n = "\\Pi" then "f" else "\\Omega f"))).sum =
      ∑ q, exampleMeaning.eqn q exampleEqn :=
  C112_moments exampleMeaning defaultNames 5 true
    (fun _ q i => by by_cases h : q = 0 <;> simp [exampleMeaning, h]) _
    (fun p hp m s => by
      simp only [defaultNames, List.mem_cons, List.not_mem_nil, or_false] at hp
      rcases hp with rfl | rfl <;> simp)
    exampleEqn _ rfl (fun l hl => by
      simp only [List.mem_cons, List.not_mem_nil, or_false] at hl
      rcases hl with rfl | rfl <;> exact ⟨by simp [Known, defaultNames], rfl⟩)

end TakeMoments
end Lbm
