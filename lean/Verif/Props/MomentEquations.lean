/-
C22: the equations with shared partial sums generated for density and momentum have the values of the defining sums.
-/
import Verif.MomentEquations
import Verif.StencilTables
import Verif.Props.Maxwellian
import Verif.Macroscopic

namespace Lbm

variable {Q D : ℕ} {R : Type} [CommRing R]

namespace Lin

theorem eval_sumOf (env : LinSym Q D → R) (T : Finset (LinSym Q D)) : (sumOf T).eval env = ∑ s ∈ T, env s := by
  simp [eval, sumOf]

theorem eval_single (env : LinSym Q D → R) (t : LinSym Q D) : (single t).eval env = env t := by
  simp [eval, single]

theorem eval_add (env : LinSym Q D → R) (a b : Lin Q D) : eval env (fun s => a s + b s) = eval env a + eval env b := by
  simp [eval, add_mul, Finset.sum_add_distrib]

theorem eval_sub (env : LinSym Q D → R) (a b : Lin Q D) : eval env (fun s => a s - b s) = eval env a - eval env b := by
  simp [eval, sub_mul, Finset.sum_sub_distrib]

/-- a substitution by a symbol that holds the value of what it replaces preserves the value -/
theorem eval_subs (env : LinSym Q D → R) (e : Lin Q D) (T : Finset (LinSym Q D)) (new : LinSym Q D)
    (h : env new = ∑ s ∈ T, env s) : (e.subs T new).eval env = e.eval env := by
  unfold subs
  split_ifs with h1 h2 h3
  · obtain ⟨t, rfl⟩ := Finset.card_eq_one.1 h1
    rw [Finset.sum_singleton] at h
    rw [eval_add (env := env) (a := fun s => if s ∈ ({t} : Finset _) then 0 else e s)
      (b := fun s => if s = new then ∑ t ∈ ({t} : Finset _), e t else 0)]
    have e1 : eval env (fun s => if s = new then ∑ t ∈ ({t} : Finset (LinSym Q D)), e t else 0) = (e t : R) * env t := by
      simp [eval, ← h]
    have e2 : eval env (fun s => if s ∈ ({t} : Finset _) then 0 else e s) = eval env e - (e t : R) * env t := by
      simp only [eval]
      rw [eq_sub_iff_add_eq, ← Finset.sum_erase_add _ _ (Finset.mem_univ t),
        ← Finset.sum_erase_add (s := Finset.univ) (a := t) (f := fun s => (e s : R) * env s) (Finset.mem_univ t)]
      rw [Finset.sum_congr rfl (g := fun s => (e s : R) * env s) fun s hs => by
        rw [if_neg (by simpa using (Finset.mem_erase.1 hs).1)]]
      simp
    rw [e1, e2]; ring
  · rw [eval_add (a := fun s => e s - sumOf T s) (b := single new), eval_sub, eval_sumOf, eval_single, h]; ring
  · rw [eval_sub (a := fun s => e s + sumOf T s) (b := single new), eval_add, eval_sumOf, eval_single, h]; ring
  · rfl

end Lin

/-- only population symbols -/
def PdfsOnly (T : Finset (LinSym Q D)) : Prop := ∀ s ∈ T, ∃ q, s = .inl q

theorem plusTerms_pdfs {c : Fin Q → Fin D → ℤ} {i : Fin D} {P : Finset (LinSym Q D)}
    (h : (firstMoment c i).plusTerms = .ok P) : PdfsOnly P := by
  unfold Lin.plusTerms at h
  split_ifs at h with h1 h2
  simp only [] at h
  split_ifs at h with h3 h4
  · cases h; intro s hs; simp at hs
  · cases h
    intro s hs
    rw [Finset.mem_filter] at hs
    rcases s with q | j
    · exact ⟨q, rfl⟩
    · simp [firstMoment] at hs

theorem foldl_sdiff_sub {α : Type} [DecidableEq α] (seen : List (Finset α)) (P : Finset α) :
    ∀ x, x ∈ seen.foldl (fun r S => r \ S) P ↔ x ∈ P ∧ ∀ S ∈ seen, x ∉ S := by
  induction seen generalizing P with
  | nil => simp
  | cons S rest ih => intro x; rw [List.foldl_cons, ih]; simp [and_assoc]

/-- the sets of terms of the subexpressions: one per axis, non-empty, disjoint, populations only -/
theorem sharedTerms_spec {seen l r : List (Finset (LinSym Q D))} (h : sharedTerms seen l = some r)
    (hs : (∀ T ∈ seen, PdfsOnly T ∧ T.Nonempty) ∧ seen.Pairwise Disjoint) (hl : ∀ T ∈ l, PdfsOnly T) :
    ((∀ T ∈ r, PdfsOnly T ∧ T.Nonempty) ∧ r.Pairwise Disjoint) ∧ r.length = seen.length + l.length := by
  induction l generalizing seen with
  | nil => simp only [sharedTerms, Option.some.injEq] at h; subst h; exact ⟨hs, rfl⟩
  | cons P rest ih =>
    simp only [sharedTerms] at h
    split_ifs at h with h0
    have key := foldl_sdiff_sub seen P
    have := ih h ⟨?_, ?_⟩ fun T hT => hl T (List.mem_cons_of_mem _ hT)
    · refine ⟨this.1, ?_⟩
      rw [this.2, List.length_append, List.length_cons, List.length_cons, List.length_nil]; omega
    · intro T hT
      rcases List.mem_append.1 hT with hT | hT
      · exact hs.1 T hT
      · rw [List.mem_singleton] at hT; subst hT
        exact ⟨fun s hs' => hl P List.mem_cons_self s ((key s).1 hs').1, Finset.card_ne_zero.1 h0⟩
    · rw [List.pairwise_append]
      refine ⟨hs.2, List.pairwise_singleton _ _, fun A hA B hB => ?_⟩
      rw [List.mem_singleton] at hB; subst hB
      rw [Finset.disjoint_left]
      exact fun x hx hx' => ((key x).1 hx').2 A hA hx

namespace MomentEquations

theorem run_inl (l : List (Finset (LinSym Q D))) (env : LinSym Q D → R) (i : ℕ) (q : Fin Q) :
    runSubexpressions env i l (.inl q) = env (.inl q) := by
  induction l generalizing env i with
  | nil => rfl
  | cons T rest ih => rw [runSubexpressions, ih]

theorem run_lt (l : List (Finset (LinSym Q D))) (env : LinSym Q D → R) (i : ℕ) (j : Fin D) (h : (j : ℕ) < i) :
    runSubexpressions env i l (.inr j) = env (.inr j) := by
  induction l generalizing env i with
  | nil => rfl
  | cons T rest ih => rw [runSubexpressions, ih _ _ (by omega)]; simp only []; rw [if_neg (by omega)]

theorem run_inr (l : List (Finset (LinSym Q D))) (hl : ∀ T ∈ l, PdfsOnly T) (env : LinSym Q D → R) (i : ℕ) (j : Fin D)
    (n : ℕ) (hj : (j : ℕ) = i + n) (T : Finset (LinSym Q D)) (hT : l[n]? = some T) :
    runSubexpressions env i l (.inr j) = ∑ s ∈ T, env s := by
  induction l generalizing env i n with
  | nil => simp at hT
  | cons S rest ih =>
    rw [runSubexpressions]
    cases n with
    | zero =>
      simp only [List.getElem?_cons_zero, Option.some.injEq] at hT; subst hT
      rw [run_lt _ _ _ _ (by omega)]
      simp only []
      rw [if_pos (by omega), Lin.eval_sumOf]
    | succ n =>
      rw [List.getElem?_cons_succ] at hT
      rw [ih (fun T hT => hl T (List.mem_cons_of_mem _ hT)) _ (i + 1) n (by omega) hT]
      refine Finset.sum_congr rfl fun s hs => ?_
      obtain ⟨q, rfl⟩ := hl T (List.mem_cons_of_mem _ (List.mem_of_getElem? hT)) s hs
      rfl

end MomentEquations

theorem eval_substituteAll (env : LinSym Q D → R) (l : List (Finset (LinSym Q D))) (e : Lin Q D) (i : ℕ)
    (h : ∀ n T (j : Fin D), l[n]? = some T → (j : ℕ) = i + n → env (.inr j) = ∑ s ∈ T, env s) :
    (substituteAll e i l).eval env = e.eval env := by
  induction l generalizing e i with
  | nil => rfl
  | cons T rest ih =>
    rw [substituteAll, ih _ (i + 1) fun n S j hS hj => h (n + 1) S j (by simpa using hS) (by omega)]
    split_ifs with hi
    · exact Lin.eval_subs env e T _ (h 0 T ⟨i, hi⟩ (by simp) (by simp))
    · rfl

theorem mapM_pdfs {c : Fin Q → Fin D → ℤ} {l : List (Fin D)} {plus : List (Finset (LinSym Q D))}
    (h : (l.mapM fun i => (firstMoment c i).plusTerms) = .ok plus) :
    (∀ T ∈ plus, PdfsOnly T) ∧ plus.length = l.length := by
  induction l generalizing plus with
  | nil => cases h; simp
  | cons i rest ih =>
    rw [List.mapM_cons] at h
    cases hp : (firstMoment c i).plusTerms with
    | error e => rw [hp] at h; cases h
    | ok P =>
      cases hr : (rest.mapM fun i => (firstMoment c i).plusTerms) with
      | error e => rw [hp, hr] at h; cases h
      | ok l' =>
        rw [hp, hr] at h; cases h
        refine ⟨fun T hT => ?_, by simp [(ih hr).2]⟩
        rcases List.mem_cons.1 hT with rfl | hT
        · exact plusTerms_pdfs hp
        · exact (ih hr).1 T hT

/-- the subexpressions are sums over disjoint, non-empty sets of populations; there is one per axis or none at all -/
theorem C22_subexpressions {c : Fin Q → Fin D → ℤ} {m : MomentEquations Q D} (h : momentEquations c = .ok m) :
    (∀ T ∈ m.subexpressions, PdfsOnly T ∧ T.Nonempty) ∧ m.subexpressions.Pairwise Disjoint ∧
      (m.subexpressions = [] ∨ m.subexpressions.length = D) := by
  unfold momentEquations at h
  split at h
  · cases h
  · rename_i plus hp
    cases h
    obtain ⟨h1, h2⟩ := mapM_pdfs hp
    simp only []
    cases hs : sharedTerms [] plus with
    | none => simp
    | some r =>
      have := sharedTerms_spec hs (by simp) h1
      rw [h2] at this
      simp only [Option.getD_some]
      exact ⟨this.1.1, this.1.2, .inr (by simpa using this.2)⟩

/-- C22: whatever the temporaries `vel_iTerm` held before, after executing the subexpressions the main assignments have the
values of the zeroth, first and second moments of the populations. -/
theorem C22_values {c : Fin Q → Fin D → ℤ} {m : MomentEquations Q D} (h : momentEquations c = .ok m) (junk : Fin D → R)
    (f : Fin Q → R) :
    m.zeroth.eval (m.env junk f) = ∑ q, f q ∧
    (∀ i, (m.first i).eval (m.env junk f) = ∑ q, (c q i : R) * f q) ∧
    (∀ i j, (m.second i j).eval (m.env junk f) = ∑ q, (c q i : R) * (c q j : R) * f q) := by
  have hsub := C22_subexpressions h
  have hinl : ∀ q, m.env junk f (.inl q) = f q := fun q => MomentEquations.run_inl _ _ _ q
  have hinr : ∀ (n : ℕ) T (j : Fin D), m.subexpressions[n]? = some T → (j : ℕ) = 0 + n →
      m.env junk f (.inr j) = ∑ s ∈ T, m.env junk f s := by
    intro n T j hT hj
    have hmem := List.mem_of_getElem? hT
    show MomentEquations.runSubexpressions _ 0 _ _ = _
    rw [MomentEquations.run_inr _ (fun T hT => (hsub.1 T hT).1) _ 0 j n hj T hT]
    refine Finset.sum_congr rfl fun s hs => ?_
    obtain ⟨q, rfl⟩ := (hsub.1 T hmem).1 s hs
    rw [hinl]; rfl
  have base : ∀ g : Fin Q → ℤ, Lin.eval (m.env junk f) (Sum.elim g fun _ => 0 : Lin Q D) = ∑ q, (g q : R) * f q := by
    intro g
    simp [Lin.eval, Fintype.sum_sum_type, hinl]
  unfold momentEquations at h
  split at h
  · cases h
  · cases h
    refine ⟨?_, fun i => ?_, fun i j => ?_⟩
    · simp only []
      rw [eval_substituteAll _ _ _ _ hinr]
      exact (base _).trans (by simp)
    · simp only [] at hinr ⊢
      split
      · rename_i T hT
        rw [Lin.eval_subs _ _ _ _ (hinr i T i hT (by simp))]
        exact base _
      · exact base _
    · exact (base _).trans (by simp)

/-- C22: no exception is raised for a velocity set with velocities 1 and -1 on every axis; in particular for the symmetric
sets that `LBStencil` accepts, when every axis has a velocity 1. -/
theorem C22_defined {c : Fin Q → Fin D → ℤ} (hp : ∀ i, ∃ q, c q i = 1) (hm : ∀ i, ∃ q, c q i = -1) :
    ∃ m, momentEquations c = .ok m := by
  have : ∀ l : List (Fin D), ∃ plus, (l.mapM fun i => (firstMoment c i).plusTerms) = .ok plus := by
    intro l
    induction l with
    | nil => exact ⟨[], rfl⟩
    | cons i rest ih =>
      obtain ⟨plus, hplus⟩ := ih
      obtain ⟨q, hq⟩ := hp i
      obtain ⟨q', hq'⟩ := hm i
      have h1 : ¬(firstMoment c i).support.card ≤ 1 := by
        rw [Finset.card_le_one]
        intro hall
        have := hall (.inl q) (Finset.mem_filter.2 ⟨Finset.mem_univ _, by show c q i ≠ 0; omega⟩) (.inl q') (Finset.mem_filter.2 ⟨Finset.mem_univ _, by show c q' i ≠ 0; omega⟩)
        rw [Sum.inl.injEq] at this; subst this; omega
      have h2 : (Finset.univ.filter fun s => firstMoment c i s = 1).card ≠ 0 := by
        rw [Finset.card_ne_zero]; exact ⟨.inl q, Finset.mem_filter.2 ⟨Finset.mem_univ _, hq⟩⟩
      have : ∃ P, (firstMoment c i).plusTerms = .ok P := by
        unfold Lin.plusTerms
        rw [if_neg h1]
        simp only []
        rw [if_neg h2]
        split_ifs
        exacts [⟨_, rfl⟩, ⟨_, rfl⟩]
      obtain ⟨P, hP⟩ := this
      refine ⟨P :: plus, ?_⟩
      rw [List.mapM_cons, hP, hplus]; rfl
  obtain ⟨plus, h⟩ := this (List.finRange D)
  unfold momentEquations
  rw [h]
  exact ⟨_, rfl⟩

/-- the zeroth and first moment right-hand sides as lists of (coefficient, symbol index) for inspection: population `q` is
`q`, `vel_iTerm` is `Q + i` -/
def MomentEquations.show (m : MomentEquations Q D) : List (List ℕ) × List (List ℤ) :=
  let row : Lin Q D → List ℤ := fun e => (List.finRange Q).map (fun q => e (.inl q)) ++
    (List.finRange D).map fun i => e (.inr i)
  (m.subexpressions.map fun T => ((List.finRange Q).filter fun q => .inl q ∈ T).map fun q => (q : ℕ),
    row m.zeroth :: (List.finRange D).map fun i => row (m.first i))

/-- the integer velocities of a predefined stencil -/
def intVel (st : List (List ℤ)) (D : ℕ) (q : Fin st.length) (a : Fin D) : ℤ := (st.get q).getD a 0

/-- what the generated code looks like: outcome, and whether temporaries are used -/
def momentEquationsOutcome (st : List (List ℤ)) : Except PyErr Bool :=
  (momentEquations (intVel st (st.getD 0 []).length)).map fun m => !m.subexpressions.isEmpty

/-- A velocity set that has no velocity 1 on some axis, though it is symmetric and moves along that axis, makes the function
raise an `AttributeError`: here `0, 2, -2`. -/
theorem C22_no_unit_velocity :
    (momentEquations (Q := 3) (D := 1) ![![0], ![2], ![-2]]).map (fun m => m.show) = .error .attributeError := by rfl

/-- On every predefined stencil the equations are generated without an exception. -/
theorem C22_predefined : ∀ e ∈ Tables.predefined,
    ∃ m, momentEquations (intVel e.2.2 (e.2.2.headD []).length) = .ok m := by
  have key : ∀ e ∈ Tables.predefined, ∀ i : Fin (e.2.2.headD []).length,
      (∃ q, intVel e.2.2 (e.2.2.headD []).length q i = 1) ∧ ∃ q, intVel e.2.2 (e.2.2.headD []).length q i = -1 := by
    decide +kernel
  exact fun e he => C22_defined (fun i => (key e he i).1) fun i => (key e he i).2

/-- the generated equations of D2Q9: `vel0Term = f1 + f5 + f8`, `vel1Term = f3 + f7`, every population occurs once in the
density -/
theorem C22_D2Q9 : (momentEquations (intVel Tables.D2Q9_uk 2)).toOption.map (fun m => m.show) = some
    ([[1, 5, 8], [3, 7]],
      [[1, 0, 1, 0, 1, 0, 1, 0, 0, 1, 1], [0, 0, -1, 0, 0, 0, -1, -1, 0, 1, 0], [0, 0, 0, 0, -1, 1, -1, 0, -1, 0, 1]]) := by
  decide +kernel

/-- the conserved quantities of `equilibriumInput` are those computed by the generated equations -/
theorem C22_equilibriumInput {K : Type} [Field K] {c : Fin Q → Fin D → ℤ} {m : MomentEquations Q D}
    (h : momentEquations c = .ok m) (junk : Fin D → K) (f : Fin Q → K) (cq : Cqc K D) :
    let m0 := m.zeroth.eval (m.env junk f)
    let rho := if cq.zeroCentered then cq.rho0 + m0 else m0
    let x := cq.equilibriumInput (fun q a => (c q a : K)) f
    x.rho = rho ∧ x.deltaRho = rho - cq.rho0 ∧
      (cq.force = none → ∀ a, x.u a = (m.first a).eval (m.env junk f) / cq.reference rho) := by
  obtain ⟨h0, h1, -⟩ := C22_values h junk f
  simp only [h0, h1]
  refine ⟨rfl, ?_, fun hf a => ?_⟩
  · simp only [Cqc.equilibriumInput]; split_ifs <;> ring
  · simp only [Cqc.equilibriumInput, hf]
    congr 1
    exact Finset.sum_congr rfl fun q _ => mul_comm _ _

/-- With zero-centred storage the quantities `moment0` and `moment1` are the moments of the stored deviations, whereas
`moment2` is the moment of the populations themselves (for background density 1). -/
theorem C22_output_moments {K : Type} [Field K] {c : Fin Q → Fin D → K} {w : Fin Q → K} {cs : K}
    (hw : Spec.Isotropic3 c w cs) (cq : Cqc K D) (f : Fin Q → K) :
    (cq.output cs c f).moment0 = ∑ q, f q ∧ (∀ a, (cq.output cs c f).moment1 a = ∑ q, c q a * f q) ∧
    ∀ a b, (cq.output cs c f).moment2 a b =
      ∑ q, c q a * c q b * (f q + if cq.zeroCentered = true then w q else 0) := by
  refine ⟨rfl, fun a => rfl, fun a b => ?_⟩
  have := hw.m2 a b
  simp only [Cqc.output]
  cases hz : cq.zeroCentered
  · simp only [Bool.false_eq_true, false_and, if_false, add_zero]
    exact Finset.sum_congr rfl fun q _ => by ring
  · simp only [true_and, if_true, mul_add, Finset.sum_add_distrib]
    congr 1
    · exact Finset.sum_congr rfl fun q _ => by ring
    · rw [show ∑ q, c q a * c q b * w q = ∑ q, w q * c q a * c q b from
        Finset.sum_congr rfl fun q _ => by ring, this]
      simp only [Spec.δ]
      split_ifs <;> simp

/-- **C22 (disagreement).** In zero-centred storage the `moment0` output and the `moment2` output belong to
different populations: at the rest state (all stored deviations zero) the zeroth moment is reported as `0` while
the second moment is reported as that of the background, `c_s² ≠ 0`. -/
theorem C22_output_orders_disagree : ∃ (cq : Cqc ℚ 2) (f : Fin 9 → ℚ), cq.zeroCentered = true ∧
    (cq.output (1/3) (fun q a => ((intVel Tables.D2Q9_uk 2 q a : ℤ) : ℚ)) f).moment0 = 0 ∧
    (cq.output (1/3) (fun q a => ((intVel Tables.D2Q9_uk 2 q a : ℤ) : ℚ)) f).moment2 0 0 = 1/3 :=
  ⟨⟨true, true, 1, none⟩, fun _ => 0, rfl, by simp [Cqc.output], by simp [Cqc.output]⟩

/-- C22 for D2Q9 with concrete populations and arbitrary old values of the temporaries -/
example (junk : Fin 2 → ℚ) : ∃ m, momentEquations (intVel Tables.D2Q9_uk 2) = .ok m ∧
    m.zeroth.eval (m.env junk fun q => ((q : ℕ) : ℚ)) = 36 := by
  have key : (momentEquations (intVel Tables.D2Q9_uk 2)).isOk = true := by decide +kernel
  cases h : momentEquations (intVel Tables.D2Q9_uk 2) with
  | error e => rw [h] at key; cases key
  | ok m => exact ⟨m, rfl, (C22_values h junk _).1.trans (by decide +kernel)⟩

end Lbm
