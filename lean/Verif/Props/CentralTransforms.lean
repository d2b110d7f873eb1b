/-
C94: the four transforms between populations and central moments compute the same.
-/
import Verif.CentralTransforms
import Verif.Props.Chimera
import Verif.Props.ShiftMatrix
import Verif.Props.CumulantMethod
import Verif.Props.Aliasing

set_option linter.unusedSectionVars false

namespace Lbm

open Matrix CentralMoments

variable {K : Type} [Field K] {D : ℕ}

namespace Spec

/-- central moments about `u` of populations together with a background distribution -/
def centralMoments (st : List (List ℤ)) (polys : Fin st.length → MPoly ℤ) (b : CentralTransforms.Background K D) (u : Fin D → K)
    (f : Fin st.length → K) (i : Fin st.length) : K :=
  ∑ q, f q * polyEval ((polys i).map fun t => ((t.1 : K), t.2)) (List.ofFn fun a : Fin D => (((st.get q).getD a 0 : ℤ) : K) - u a) +
    ((polys i).map fun t => (t.1 : K) * b.central u t.2).sum

/-- the central moments of the background belong to its raw moments -/
def Consistent (b : CentralTransforms.Background K D) : Prop :=
  ∀ u e, e.length = D → b.central u e = Chimera.Spec.shift (List.ofFn fun a => -u a) b.raw e

/-- the polynomials are linear combinations of distinct monomials in `D` variables with exponents below 10 -/
def Polynomials {Q : ℕ} (D : ℕ) (polys : Fin Q → MPoly ℤ) : Prop :=
  ∀ i, ((polys i).map Prod.snd).Nodup ∧ ∀ t ∈ polys i, t.1 ≠ 0 ∧ t.2.length = D ∧ ∀ a ∈ t.2, a < 10

/-- directions of a first-neighbour stencil -/
def FirstNeighbours (D : ℕ) (st : List (List ℤ)) : Prop :=
  st.Nodup ∧ (∀ c ∈ st, c.length = D) ∧ ∀ c ∈ st, ∀ a ∈ c, a = -1 ∨ a = 0 ∨ a = 1

end Spec

namespace CentralTransforms

open Chimera

/-! ### Evaluation -/

theorem monomial_eq (e : List ℕ) (v : Fin D → K) : Spec.monomial e (List.ofFn v) = evM e v := by
  induction D generalizing e with
  | zero => simp [Spec.monomial, evM]
  | succ D ih =>
    cases e with
    | nil => simp [Spec.monomial, evM]
    | cons a e =>
      have := ih e fun i => v i.succ
      rw [evM, Fin.prod_univ_succ, List.ofFn_succ]
      unfold Spec.monomial at this ⊢
      rw [List.zipWith_cons_cons, List.prod_cons, this]
      simp [evM]

theorem polyEval_eq (p : MPoly ℤ) (v : Fin D → K) :
    Spec.polyEval (p.map fun t => ((t.1 : K), t.2)) (List.ofFn v) = evP p v := by
  unfold Spec.polyEval evP
  rw [List.map_map]
  congr 1
  exact List.map_congr_left fun t _ => by simp [monomial_eq]

theorem weight_prod (w : ℕ → ℤ → ℕ → K) : ∀ (D k : ℕ) (c : List ℤ) (e : List ℕ), c.length = D → e.length = D →
    Chimera.Spec.weight w k c e = ∏ i : Fin D, w (k + i) (c.getD i 0) (e.getD i 0) := by
  intro D
  induction D with
  | zero =>
    intro k c e hc he
    rw [List.length_eq_zero_iff.1 hc]
    simp [Chimera.Spec.weight]
  | succ D ih =>
    intro k c e hc he
    match c, e, hc, he with
    | a :: c, n :: e, hc, he =>
      rw [Chimera.Spec.weight, ih (k + 1) c e (by simpa using hc) (by simpa using he), Fin.prod_univ_succ]
      simp only [Fin.val_zero, add_zero, List.getD_cons_zero, Fin.val_succ, List.getD_cons_succ]
      congr 1
      exact Finset.prod_congr rfl fun i _ => by rw [add_right_comm, add_assoc]

theorem weight_central (u : Fin D → K) (c : List ℤ) (e : List ℕ) (hc : c.length = D) (he : e.length = D) :
    Chimera.Spec.weight (centralFactor (component u)) 0 c e = evM e fun a => ((c.getD a 0 : ℤ) : K) - u a := by
  rw [weight_prod _ D 0 c e hc he, evM]
  refine Finset.prod_congr rfl fun a _ => ?_
  simp [centralFactor, component]

theorem weight_raw (c : List ℤ) (e : List ℕ) (hc : c.length = D) (he : e.length = D) :
    Chimera.Spec.weight (rawFactor (K := K)) 0 c e = evM e fun a : Fin D => ((c.getD a 0 : ℤ) : K) := by
  rw [weight_prod _ D 0 c e hc he, evM]
  rfl

/-! ### Shift -/

theorem range_eq_ofFn (u : Fin D → K) : ((List.range D).map fun i => -component u i) = List.ofFn fun a => -u a := by
  apply List.ext_getElem (by simp)
  intro n h1 h2
  have h : n < D := by simpa using h1
  simp [component, h]

/-- the value of a shifted monomial -/
theorem evM_shift (u v : Fin D → K) (e : List ℕ) (he : e.length = D) :
    evM e (v - u) = Chimera.Spec.shift (List.ofFn fun a => -u a) (fun a => evM a v) e := by
  induction D generalizing e with
  | zero => simp [evM, Chimera.Spec.shift]
  | succ D ih =>
    match e, he with
    | m :: e, he =>
      rw [List.ofFn_succ, Chimera.Spec.shift]
      have h1 : ∀ (a : ℕ) (l : List ℕ), evM (a :: l) v = v 0 ^ a * evM l fun i => v i.succ := by
        intro a l
        simp [evM, Fin.prod_univ_succ]
      have h2 : evM (m :: e) (v - u) = (v 0 - u 0) ^ m * evM e ((fun i => v i.succ) - fun i => u i.succ) := by
        simp [evM, Fin.prod_univ_succ]
      rw [h2, ih (fun i => u i.succ) (fun i => v i.succ) e (by simpa using he), sub_eq_add_neg, add_pow, Finset.sum_mul]
      refine Finset.sum_congr rfl fun a _ => ?_
      have h3 := shift_sum (List.ofFn fun a : Fin D => -u a.succ) {()} (fun _ => v 0 ^ a)
        (fun _ l => evM l fun i => v i.succ) e
      simp only [Finset.sum_singleton] at h3
      simp only [h1]
      rw [h3]
      ring

/-- a value that vanishes strictly below a tuple -/
theorem shift_top (vs : List K) : ∀ (κ : List ℕ → K) (m : List ℕ), m.length = vs.length →
    (∀ a, List.Forall₂ (· ≤ ·) a m → a ≠ m → κ a = 0) → Chimera.Spec.shift vs κ m = κ m := by
  induction vs with
  | nil => intro κ m hm _; rw [List.length_eq_zero_iff.1 hm]; rfl
  | cons v vs ih =>
    intro κ m hm h
    match m, hm with
    | e :: m, hm =>
      rw [Chimera.Spec.shift, Finset.sum_eq_single e]
      · rw [ih (fun l => κ (e :: l)) m (by simpa using hm) fun a ha hne => h _ (.cons le_rfl ha) (by simpa using hne)]
        simp
      · intro a ha hne
        have hae : a ≤ e := by have := Finset.mem_range.1 ha; omega
        rw [shift_congr vs (fun l => κ (a :: l)) (fun _ => 0) m fun l hl => h _ (.cons hae hl) (by simp [hne])]
        have h3 := shift_sum vs (∅ : Finset Unit) (fun _ => (0 : K)) (fun _ _ => 0) m
        simp only [Finset.sum_empty] at h3
        rw [h3, mul_zero]
      · intro h; exact absurd (Finset.mem_range.2 (Nat.lt_succ_self e)) h

section closed
variable {Q : ℕ} {exps : Fin Q → List ℕ} (hinj : Function.Injective exps) (hdc : Chimera.Spec.DownwardClosed (List.ofFn exps))

/-- matrix of the binomial shift -/
def binMat (exps : Fin Q → List ℕ) (u : Fin D → K) : Matrix (Fin Q) (Fin Q) K :=
  fun i j => Chimera.Spec.shift (List.ofFn fun a => -u a) (fun a => if a = exps j then 1 else 0) (exps i)

include hinj hdc in
theorem binMat_mul (u : Fin D → K) (κ : List ℕ → K) (i : Fin Q) :
    (binMat exps u *ᵥ fun j => κ (exps j)) i = Chimera.Spec.shift (List.ofFn fun a => -u a) κ (exps i) := by
  have h := shift_sum (List.ofFn fun a => -u a) (Finset.univ : Finset (Fin Q)) (fun j => κ (exps j))
    (fun j a => if a = exps j then (1 : K) else 0) (exps i)
  rw [shift_congr _ κ (fun l => ∑ j, κ (exps j) * if l = exps j then (1 : K) else 0) (exps i) fun a ha => ?_, h]
  · rw [mulVec, dotProduct]
    exact Finset.sum_congr rfl fun j _ => mul_comm _ _
  · obtain ⟨k, rfl⟩ := (List.mem_ofFn' exps _).1 (hdc _ ((List.mem_ofFn' exps _).2 ⟨i, rfl⟩) a ha)
    rw [Finset.sum_eq_single k]
    · simp
    · intro j _ hj
      rw [if_neg fun h => hj (hinj h).symm, mul_zero]
    · simp

theorem sum_le_of_forall₂ {a m : List ℕ} (h : List.Forall₂ (· ≤ ·) a m) : a.sum ≤ m.sum ∧ (a.sum = m.sum → a = m) := by
  induction h with
  | nil => simp
  | @cons x y l l' h _ ih =>
    simp only [List.sum_cons]
    refine ⟨by omega, fun he => ?_⟩
    obtain ⟨h1, h2⟩ := ih
    rw [h2 (by omega), show x = y by omega]

theorem binMat_zero (u : Fin D → K) {i j : Fin Q} (h : ¬ List.Forall₂ (· ≤ ·) (exps j) (exps i)) : binMat exps u i j = 0 := by
  rw [binMat, shift_congr _ (fun a => if a = exps j then (1 : K) else 0) (fun _ => (0 : K)) (exps i) fun a ha =>
    if_neg fun he : a = exps j => h (he ▸ ha)]
  have h3 := shift_sum (List.ofFn fun a => -u a) (∅ : Finset Unit) (fun _ => (0 : K)) (fun _ _ => 0) (exps i)
  simpa only [Finset.sum_empty] using h3

theorem binMat_diag (hlen : ∀ j, (exps j).length = D) (u : Fin D → K) (i : Fin Q) : binMat exps u i i = 1 := by
  rw [binMat, shift_top _ _ _ (by simp [hlen]) fun a _ hne => if_neg hne, if_pos rfl]

include hinj hdc in
theorem evM_binMat (hlen : ∀ j, (exps j).length = D) (u v : Fin D → K) (i : Fin Q) :
    evM (exps i) (v - u) = ∑ j, binMat exps u i j * evM (exps j) v := by
  rw [evM_shift u v _ (hlen i), ← binMat_mul hinj hdc]
  rfl

include hinj hdc in
/-- for exponents that contain everything below them, in the order of their sums -/
theorem setUp_closed (hlen : ∀ j, (exps j).length = D) (hs : ∀ i j, i ≤ j → (exps i).sum ≤ (exps j).sum) {c : Fin Q → Fin D → K}
    (hd : (momentMatrix evM exps c 0).det ≠ 0) :
    setUpShiftMatrix evM exps c = .ok (binMat exps) ∧ ∀ u : Fin D → K, (binMat exps u).det = 1 := by
  have hN : ∀ u, shiftMatrix evM exps c u = binMat exps u := fun u =>
    shiftMatrix_eq hd u _ fun i q => evM_binMat hinj hdc hlen u (c q) i
  have hlow : ∀ (u : Fin D → K) (i j : Fin Q), i < j → binMat exps u i j = 0 := by
    intro u i j hij
    refine binMat_zero u fun h => ?_
    obtain ⟨h1, h2⟩ := sum_le_of_forall₂ h
    have := hs i j hij.le
    exact hij.ne' (hinj (h2 (by omega)))
  have hfun : shiftMatrix evM exps c = binMat exps := funext hN
  refine ⟨?_, fun u => ?_⟩
  · unfold setUpShiftMatrix
    rw [hfun, if_neg hd, if_neg (not_not.2 (show IsLower (binMat exps) from hlow)),
      if_neg (not_not.2 fun u => by simp [binMat_diag hlen])]
  · rw [det_lower _ (hlow u)]
    simp [binMat_diag hlen]

end closed

/-! ### Steps -/

theorem take_of_length {e : List ℕ} (h : e.length = D) : e.take D = e := by rw [← h, List.take_length]

theorem sums_eq {st : List (List ℤ)} (hD : 0 < D) (hst : Spec.FirstNeighbours D st) (w : ℕ → ℤ → ℕ → K)
    {exps : Fin st.length → List ℕ} (hlen : ∀ j, (exps j).length = D) (h10 : ∀ j, ∀ a ∈ exps j, a < 10) (f : Fin st.length → K)
    (j : Fin st.length) : sums D st w exps f j = ∑ q, f q * Chimera.Spec.weight w 0 (st.get q) (exps j) := by
  unfold sums
  simp only [take_of_length (hlen _)]
  rw [sumChimera_run st hst.1 D hD hst.2.1 hst.2.2 w (List.ofFn fun i => exps i) (fun e he => ?_) (fun e he => ?_) (pdfEnv f)
    (exps j) ((List.mem_ofFn' _ _).2 ⟨j, rfl⟩)]
  · unfold Chimera.Spec.moment
    refine Finset.sum_congr rfl fun q _ => ?_
    simp [pdfEnv]
  · obtain ⟨k, rfl⟩ := (List.mem_ofFn' _ _).1 he; exact hlen k
  · obtain ⟨k, rfl⟩ := (List.mem_ofFn' _ _).1 he; exact h10 k

theorem sums_central {st : List (List ℤ)} (hD : 0 < D) (hst : Spec.FirstNeighbours D st)
    {exps : Fin st.length → List ℕ} (hlen : ∀ j, (exps j).length = D) (h10 : ∀ j, ∀ a ∈ exps j, a < 10) (u : Fin D → K)
    (f : Fin st.length → K) : sums D st (centralFactor (component u)) exps f = momentMatrix evM exps (velocity st) u *ᵥ f := by
  funext j
  rw [sums_eq hD hst _ hlen h10, mulVec, dotProduct]
  refine Finset.sum_congr rfl fun q _ => ?_
  rw [weight_central u _ _ (hst.2.1 _ (List.get_mem _ _)) (hlen j), mul_comm]
  rfl

theorem sums_raw {st : List (List ℤ)} (hD : 0 < D) (hst : Spec.FirstNeighbours D st)
    {exps : Fin st.length → List ℕ} (hlen : ∀ j, (exps j).length = D) (h10 : ∀ j, ∀ a ∈ exps j, a < 10)
    (f : Fin st.length → K) : sums D st rawFactor exps f = momentMatrix evM exps (velocity st) (0 : Fin D → K) *ᵥ f := by
  funext j
  rw [sums_eq hD hst _ hlen h10, mulVec, dotProduct]
  refine Finset.sum_congr rfl fun q _ => ?_
  rw [weight_raw (D := D) _ _ (hst.2.1 _ (List.get_mem _ _)) (hlen j), mul_comm, momentMatrix_zero]
  rfl

theorem monoEnv_name {Q : ℕ} {exps : Fin Q → List ℕ} (hinj : Function.Injective exps) (h10 : ∀ j, ∀ a ∈ exps j, a < 10)
    (m : Fin Q → K) (free : List Char → K) (j : Fin Q) : monoEnv exps m free (.frm (sqName (exps j))) = m j := by
  unfold monoEnv
  have : (List.finRange Q).find? (fun k => sqName (exps k) == sqName (exps j)) = some j := by
    cases h : (List.finRange Q).find? (fun k => sqName (exps k) == sqName (exps j)) with
    | none =>
      have := List.find?_eq_none.1 h j (List.mem_finRange j)
      simp at this
    | some k =>
      have := List.find?_some h
      rw [beq_iff_eq] at this
      rw [hinj (sqName_inj _ _ (h10 k) (h10 j) this)]
  simp only [this]

theorem binomialStep_eq {Q : ℕ} {exps : Fin Q → List ℕ} (hinj : Function.Injective exps)
    (hdc : Chimera.Spec.DownwardClosed (List.ofFn exps)) (hlen : ∀ j, (exps j).length = D) (h10 : ∀ j, ∀ a ∈ exps j, a < 10)
    (u : Fin D → K) (free : List Char → K) (m : Fin Q → K) :
    binomialStep (fun a => -u a) exps free m = .ok (binMat exps u *ᵥ m) := by
  have hmem : ∀ e ∈ List.ofFn exps, ∃ k, exps k = e := fun e he => (List.mem_ofFn' _ _).1 he
  obtain ⟨l, h1, h2⟩ := C35_binomial (exponents := List.ofFn exps) (List.ofFn fun a => -u a)
    (fun e he => by obtain ⟨k, rfl⟩ := hmem e he; simp [hlen])
    (fun e he => by obtain ⟨k, rfl⟩ := hmem e he; exact h10 k)
  unfold binomialStep
  rw [h1]
  refine congrArg Except.ok (funext fun j => ?_)
  rw [h2 _ _ ((List.mem_ofFn' _ _).2 ⟨j, rfl⟩)]
  set κ : List ℕ → K := fun a => monoEnv exps m free (.frm (sqName a)) with hκ
  have : m = fun j => κ (exps j) := funext fun j => (monoEnv_name hinj h10 m free j).symm
  rw [this, binMat_mul hinj hdc]

theorem coef_cons (t : ℤ × List ℕ) (p : MPoly ℤ) (e : List ℕ) : coef (t :: p) e = if t.2 = e then t.1 else coef p e := by
  unfold coef
  rw [List.find?_cons]
  by_cases h : t.2 = e
  · simp [h]
  · rw [if_neg h]
    have : (t.2 == e) = false := by simpa using h
    rw [this]

theorem coef_eq_zero {p : MPoly ℤ} {e : List ℕ} (h : e ∉ p.map Prod.snd) : coef p e = 0 := by
  induction p with
  | nil => rfl
  | cons t p ih =>
    rw [List.map_cons, List.mem_cons, not_or] at h
    rw [coef_cons, if_neg (Ne.symm h.1), ih h.2]

/-- a sum over the terms as a sum over the monomials -/
theorem terms_sum {Q : ℕ} {exps : Fin Q → List ℕ} (hinj : Function.Injective exps) (g : List ℕ → K) : ∀ (p : MPoly ℤ),
    (p.map Prod.snd).Nodup → (∀ t ∈ p, ∃ j, exps j = t.2) →
    (p.map fun t => (t.1 : K) * g t.2).sum = ∑ j, ((coef p (exps j) : ℤ) : K) * g (exps j)
  | [], _, _ => by simp [coef]
  | t :: p, hnd, hex => by
    rw [List.map_cons, List.nodup_cons] at hnd
    rw [List.map_cons, List.sum_cons, terms_sum hinj g p hnd.2 fun t ht => hex t (List.mem_cons_of_mem _ ht)]
    obtain ⟨k, hk⟩ := hex t List.mem_cons_self
    rw [← Finset.add_sum_erase _ _ (Finset.mem_univ k), ← Finset.add_sum_erase _ _ (Finset.mem_univ k)]
    simp only [coef_cons]
    rw [if_pos hk.symm, hk, coef_eq_zero hnd.1, Int.cast_zero, zero_mul, zero_add]
    congr 1
    refine Finset.sum_congr rfl fun j hj => ?_
    rw [if_neg]
    rintro h
    exact (Finset.mem_erase.1 hj).1 (hinj (h.symm.trans hk.symm))

/-! ### Constructor -/

theorem evM_velocity (st : List (List ℤ)) (hlen : ∀ c ∈ st, c.length = D) (e : List ℕ) (q : Fin st.length) :
    evM e (velocity (K := K) (D := D) st q) = ((Spec.monomial e (st.get q) : ℤ) : K) := by
  rw [← monomial_cast, ← monomial_eq]
  congr 1
  have hl : (st.get q).length = D := hlen _ (List.get_mem _ _)
  apply List.ext_getElem (by simp [← hl])
  intro n h1 h2
  have h3 : n < (st.get q).length := by simpa using h2
  rw [List.getElem_ofFn, List.getElem_map]
  show (((st.get q).getD n 0 : ℤ) : K) = _
  rw [List.getD_eq_getElem _ _ h3]

theorem evP_velocity (st : List (List ℤ)) (hlen : ∀ c ∈ st, c.length = D) (p : MPoly ℤ) (q : Fin st.length) :
    evP p (velocity (K := K) (D := D) st q) = ((Spec.polyEval p (st.get q) : ℤ) : K) := by
  unfold evP Spec.polyEval
  induction p with
  | nil => simp
  | cons t p ih =>
    rw [List.map_cons, List.sum_cons, ih, List.map_cons, List.sum_cons, evM_velocity st hlen]
    push_cast
    rfl

theorem polyEval_collectTerms (p : MPoly ℤ) (x : List ℤ) : Spec.polyEval (collectTerms p) x = Spec.polyEval p x := by
  have h : ∀ (p acc : MPoly ℤ), PExpr.evalM (p.foldl (fun acc t => PExpr.addTerm t.1 t.2 acc) acc) x =
      PExpr.evalM acc x + PExpr.evalM p x := by
    intro p
    induction p with
    | nil => intro acc; simp [PExpr.evalM_nil]
    | cons t p ih =>
      intro acc
      rw [List.foldl_cons, ih, PExpr.evalM_addTerm, PExpr.evalM_cons]
      ring
  have e : ∀ p : MPoly ℤ, PExpr.evalM p x = Spec.polyEval p x := by
    intro p
    simp [PExpr.evalM]
  have := h p []
  rw [PExpr.evalM_nil, zero_add, e, e] at this
  exact this

theorem collected_collectTerms (p : MPoly ℤ) : PExpr.Collected (collectTerms p) ∧
    ∀ m ∈ (collectTerms p).map Prod.snd, m ∈ p.map Prod.snd := by
  have h : ∀ (p acc : MPoly ℤ), PExpr.Collected acc →
      PExpr.Collected (p.foldl (fun acc t => PExpr.addTerm t.1 t.2 acc) acc) ∧
      ∀ m ∈ (p.foldl (fun acc t => PExpr.addTerm t.1 t.2 acc) acc).map Prod.snd, m ∈ p.map Prod.snd ∨ m ∈ acc.map Prod.snd := by
    intro p
    induction p with
    | nil => intro acc h; exact ⟨h, fun m hm => Or.inr hm⟩
    | cons t p ih =>
      intro acc h
      obtain ⟨h1, h2⟩ := ih _ (h.addTerm t.1 t.2)
      refine ⟨h1, fun m hm => ?_⟩
      rcases h2 m hm with h3 | h3
      · exact Or.inl (List.mem_cons_of_mem _ h3)
      · rcases PExpr.addTerm_mem _ _ _ m h3 with rfl | h4
        · exact Or.inl List.mem_cons_self
        · exact Or.inr h4
  obtain ⟨h1, h2⟩ := h p [] ⟨List.nodup_nil, by simp⟩
  exact ⟨h1, fun m hm => (h2 m hm).resolve_right (by simp)⟩

theorem pad_eq {p : MPoly ℤ} (h : ∀ m ∈ p.map Prod.snd, m.length = 3) : pad p = p := by
  unfold pad
  refine (List.map_congr_left fun t ht => ?_).trans (List.map_id p)
  rw [h t.2 (List.mem_map_of_mem ht)]
  simp

theorem mem_extract {polys : List (MPoly ℤ)} {m : List ℕ} :
    m ∈ extract polys ↔ ∃ p ∈ polys, ∃ t ∈ p, t.1 ≠ 0 ∧ t.2 = m := by
  unfold extract
  simp [and_assoc]

theorem mem_monomials {Q : ℕ} {polys : Fin Q → MPoly ℤ} {m : List ℕ} :
    m ∈ monomials polys ↔ ∃ i, ∃ t ∈ polys i, t.1 ≠ 0 ∧ t.2 = m := by
  unfold monomials
  rw [(CumulantMethod.sortExponents_perm _).mem_iff, mem_extract]
  constructor
  · rintro ⟨p, hp, h⟩
    obtain ⟨i, rfl⟩ := (List.mem_ofFn' _ _).1 hp
    exact ⟨i, h⟩
  · rintro ⟨i, h⟩
    exact ⟨_, (List.mem_ofFn' _ _).2 ⟨i, rfl⟩, h⟩

theorem monomials_nodup {Q : ℕ} (polys : Fin Q → MPoly ℤ) : (monomials polys).Nodup :=
  (CumulantMethod.sortExponents_perm _).nodup_iff.2 (List.nodup_dedup _)

/-- what is known of the exponents chosen by the constructor -/
structure GoodExps {Q : ℕ} (polys : Fin Q → MPoly ℤ) (exps : Fin Q → List ℕ) : Prop where
  inj : Function.Injective exps
  mem : ∀ j, exps j ∈ monomials polys
  sorted : ∀ i j, i ≤ j → (exps i).sum ≤ (exps j).sum

theorem exps_of_list {Q : ℕ} {l : List (List ℕ)} (hl : l.length = Q) (hnd : l.Nodup) (hs : l.Pairwise fun a b => a.sum ≤ b.sum) :
    Function.Injective (fun j : Fin Q => l.getD j []) ∧ (∀ j : Fin Q, l.getD j [] ∈ l) ∧ (∀ m ∈ l, ∃ j : Fin Q, l.getD j [] = m) ∧
    ∀ i j : Fin Q, i ≤ j → (l.getD i []).sum ≤ (l.getD j []).sum := by
  subst hl
  have e : ∀ j : Fin l.length, l.getD j [] = l.get j := fun j => List.getD_eq_getElem _ _ j.2
  refine ⟨fun i j h => ?_, fun j => ?_, fun m hm => ?_, fun i j hij => ?_⟩
  · simp only [e] at h
    exact (List.nodup_iff_injective_get.1 hnd) h
  · rw [e]; exact List.get_mem _ _
  · obtain ⟨j, hj⟩ := List.mem_iff_get.1 hm
    exact ⟨j, (e j).trans hj⟩
  · rw [e, e]
    rcases hij.lt_or_eq with h | rfl
    · exact List.pairwise_iff_get.1 hs i j h
    · exact le_rfl

theorem sorted_sums (l : List (List ℕ)) : (CumulantMethod.sortExponents l).Pairwise fun a b => a.sum ≤ b.sum :=
  (CumulantMethod.sortExponents_pairwise l).imp fun h => CumulantMethod.keyLe_sum h

theorem aliased_mem {st : List (List ℤ)} (hst : ∀ c ∈ st, c.length = D) {polys : Fin st.length → MPoly ℤ}
    (hp : Spec.Polynomials D polys) {p : MPoly ℤ} (h : p ∈ nonAliasedPolynomials (List.ofFn polys) (monomials polys) st) :
    ∀ m ∈ p.map Prod.snd, m ∈ monomials polys := by
  obtain ⟨-, h2, -, -⟩ := C17_aliases (monomials polys) st D hst (monomials_nodup polys)
  have h0 : ∀ i, ∀ t ∈ polys i, t.2 ∈ monomials polys := fun i t ht => mem_monomials.2 ⟨i, t, ht, ((hp i).2 t ht).1, rfl⟩
  unfold nonAliasedPolynomials at h
  dsimp only at h
  split at h
  · obtain ⟨i, rfl⟩ := (List.mem_ofFn' _ _).1 h
    intro m hm
    obtain ⟨t, ht, rfl⟩ := List.mem_map.1 hm
    exact h0 i t ht
  · obtain ⟨p', hp', rfl⟩ := List.mem_map.1 h
    obtain ⟨i, rfl⟩ := (List.mem_ofFn' _ _).1 hp'
    intro m hm
    obtain ⟨t, ht, rfl⟩ := List.mem_map.1 hm
    obtain ⟨t', ht', rfl⟩ := List.mem_map.1 ht
    exact h2 _ (h0 i t' ht')

theorem reduced_entry {st : List (List ℤ)} (hst : ∀ c ∈ st, c.length = 3) {polys : Fin st.length → MPoly ℤ}
    (hp : Spec.Polynomials 3 polys) (i : Fin st.length) :
    let r := (reducedPolynomials st polys).getD i []
    r ∈ reducedPolynomials st polys ∧ PExpr.Collected r ∧ (∀ m ∈ r.map Prod.snd, m ∈ monomials polys) ∧
      ∀ c ∈ st, Spec.polyEval r c = Spec.polyEval (polys i) c := by
  intro r
  obtain ⟨hl, hv⟩ := C17_polynomials (List.ofFn polys) (monomials polys) st 3 hst (monomials_nodup polys)
  rw [List.length_ofFn] at hl
  have hi : i.val < (nonAliasedPolynomials (List.ofFn polys) (monomials polys) st).length := by rw [hl]; exact i.2
  set L := nonAliasedPolynomials (List.ofFn polys) (monomials polys) st with hL
  have hmem : L[i.val] ∈ L := List.getElem_mem hi
  have h1 : ∀ m ∈ (collectTerms L[i.val]).map Prod.snd, m ∈ monomials polys := fun m hm =>
    aliased_mem hst hp hmem m ((collected_collectTerms _).2 m hm)
  have hlen : ∀ m ∈ monomials polys, m.length = 3 := by
    intro m hm
    obtain ⟨i, t, ht, -, rfl⟩ := mem_monomials.1 hm
    exact ((hp i).2 t ht).2.1
  have hr : r = collectTerms L[i.val] := by
    have hi' : i.val < (reducedPolynomials st polys).length := by
      unfold reducedPolynomials
      rw [List.length_map]
      exact hi
    show (reducedPolynomials st polys).getD i [] = _
    rw [List.getD_eq_getElem _ _ hi']
    have e : (reducedPolynomials st polys)[i.val] = pad (collectTerms L[i.val]) := List.getElem_map _
    rw [e]
    exact pad_eq fun m hm => hlen m (h1 m hm)
  have hrm : r ∈ reducedPolynomials st polys := by
    have hi' : i.val < (reducedPolynomials st polys).length := by
      unfold reducedPolynomials
      rw [List.length_map]
      exact hi
    show (reducedPolynomials st polys).getD i [] ∈ _
    rw [List.getD_eq_getElem _ _ hi']
    exact List.getElem_mem hi'
  refine ⟨hrm, hr ▸ (collected_collectTerms _).1, hr ▸ h1, fun c hc => ?_⟩
  rw [hr, polyEval_collectTerms]
  have := hv i (polys i) L[i.val] (by simp) (List.getElem?_eq_getElem hi) c hc
  simpa using this

theorem reducedMonomials_mem {st : List (List ℤ)} (hst : ∀ c ∈ st, c.length = 3) {polys : Fin st.length → MPoly ℤ}
    (hp : Spec.Polynomials 3 polys) {m : List ℕ} (hm : m ∈ reducedMonomials st polys) : m ∈ monomials polys := by
  unfold reducedMonomials at hm
  rw [(CumulantMethod.sortExponents_perm _).mem_iff, mem_extract] at hm
  obtain ⟨p, hpm, t, ht, -, rfl⟩ := hm
  obtain ⟨n, hn, rfl⟩ := List.mem_iff_getElem.1 hpm
  have hn' : n < st.length := by
    obtain ⟨hl, -⟩ := C17_polynomials (List.ofFn polys) (monomials polys) st 3 hst (monomials_nodup polys)
    unfold reducedPolynomials at hn
    rw [List.length_map, hl, List.length_ofFn] at hn
    exact hn
  obtain ⟨-, -, h, -⟩ := reduced_entry hst hp ⟨n, hn'⟩
  refine h t.2 ?_
  rw [show ((⟨n, hn'⟩ : Fin st.length) : ℕ) = n from rfl, List.getD_eq_getElem _ _ hn]
  exact List.mem_map_of_mem ht

/-- the constructor: exponents, and the polynomial moments from the monomial ones -/
theorem setup_good {st : List (List ℤ)} (hst : ∀ c ∈ st, c.length = D) {polys : Fin st.length → MPoly ℤ}
    (hp : Spec.Polynomials D polys) (h3 : (monomials polys).length = st.length ∨ D = 3) {s : Setup K D st.length}
    (h : setup K D st polys = .ok s) : GoodExps polys s.exps ∧
    ∀ u, (∀ N, setUpShiftMatrix evM s.exps (velocity (K := K) (D := D) st) = .ok N → (N u).det ≠ 0) →
      s.P u * momentMatrix evM s.exps (velocity st) u = momentMatrix evP polys (velocity st) u := by
  unfold setup at h
  by_cases hq : (monomials polys).length = st.length
  · rw [if_neg (not_not.2 hq)] at h
    dsimp only at h
    split at h
    · cases h
    cases h
    obtain ⟨e1, e2, e3, e4⟩ := exps_of_list hq (monomials_nodup polys) (sorted_sums _)
    refine ⟨⟨e1, e2, e4⟩, fun u _ => ?_⟩
    ext i q
    rw [mul_apply]
    exact (terms_sum e1 (fun e => evM e fun a => velocity st q a - u a) (polys i) (hp i).1 fun t ht =>
      e3 _ (mem_monomials.2 ⟨i, t, ht, ((hp i).2 t ht).1, rfl⟩)).symm
  · obtain rfl := h3.resolve_left hq
    rw [if_pos hq] at h
    dsimp only at h
    split at h
    · cases h
    rename_i hl
    rw [not_not] at hl
    split at h
    · cases h
    rename_i R hR
    split at h
    · cases h
    cases h
    have hnd : (reducedMonomials st polys).Nodup := (CumulantMethod.sortExponents_perm _).nodup_iff.2 (List.nodup_dedup _)
    obtain ⟨e1, e2, e3, e4⟩ := exps_of_list hl hnd (sorted_sums _)
    refine ⟨⟨e1, fun j => reducedMonomials_mem hst hp (e2 j), e4⟩, fun u hu => ?_⟩
    dsimp only at hu ⊢
    unfold reducedMatrix at hR
    cases hN : setUpShiftMatrix evM (fun j : Fin st.length => (reducedMonomials st polys).getD j []) (velocity (K := K) (D := 3) st) with
    | error e => rw [hN] at hR; cases hR
    | ok N =>
      cases hNP : setUpShiftMatrix evP polys (velocity (K := K) (D := 3) st) with
      | error e => rw [hN, hNP] at hR; cases hR
      | ok NP =>
        rw [hN, hNP] at hR
        cases hR
        have hdu := hu N hN
        obtain ⟨hd, rfl, -, -⟩ := setUp_ok hN
        obtain ⟨hd', rfl, -, -⟩ := setUp_ok hNP
        rw [← shiftMatrix_mul hd u, Matrix.mul_assoc, ← Matrix.mul_assoc _⁻¹, nonsing_inv_mul _ (isUnit_iff_ne_zero.2 hdu),
          Matrix.one_mul, Matrix.mul_assoc, ← shiftMatrix_mul hd' u]
        congr 1
        ext i q
        obtain ⟨g1, g2, g3, g4⟩ := reduced_entry hst hp i
        rw [mul_apply, momentMatrix_zero, evP_velocity st hst, ← g4 _ (List.get_mem _ _), ← evP_velocity (K := K) st hst]
        refine Eq.trans ?_ (terms_sum e1 (fun e => evM e (velocity (K := K) st q)) _ g2.1 fun t ht => e3 _ ?_).symm
        · exact Finset.sum_congr rfl fun j _ => by rw [momentMatrix_zero]; rfl
        · unfold reducedMonomials
          rw [(CumulantMethod.sortExponents_perm _).mem_iff, mem_extract]
          exact ⟨_, g1, t, ht, g2.2 t ht, rfl⟩

/-! ### The transforms -/

/-- both directions of a transform for one velocity -/
def Computes {st : List (List ℤ)} (polys : Fin st.length → MPoly ℤ) (b : Background K D) (u : Fin D → K)
    (t : Transform K D st.length) : Prop :=
  (∀ f, t.forward u f = .ok (Spec.centralMoments st polys b u f)) ∧
  (∀ f, t.backward u (Spec.centralMoments st polys b u f) = .ok f) ∧
  ∀ k, ∃ f, t.backward u k = .ok f ∧ Spec.centralMoments st polys b u f = k

theorem centralMoments_eq {st : List (List ℤ)} (polys : Fin st.length → MPoly ℤ) (b : Background K D) (u : Fin D → K)
    (f : Fin st.length → K) : Spec.centralMoments st polys b u f =
      momentMatrix evP polys (velocity st) u *ᵥ f + fun i => b.centralMoment u (polys i) := by
  funext i
  rw [Pi.add_apply, mulVec, dotProduct]
  unfold Spec.centralMoments
  congr 1
  refine Finset.sum_congr rfl fun q _ => ?_
  rw [polyEval_eq, mul_comm]
  rfl

/-- a transform of the expected form -/
theorem computes_of {st : List (List ℤ)} {polys : Fin st.length → MPoly ℤ} {b : Background K D} {u : Fin D → K}
    (hu : (momentMatrix evP polys (velocity (K := K) (D := D) st) u).det ≠ 0) {t : Transform K D st.length}
    (h1 : ∀ f, t.forward u f = .ok (momentMatrix evP polys (velocity st) u *ᵥ f + fun i => b.centralMoment u (polys i)))
    (h2 : ∀ k, t.backward u k = .ok ((momentMatrix evP polys (velocity st) u)⁻¹ *ᵥ (k - fun i => b.centralMoment u (polys i)))) :
    Computes polys b u t := by
  have hU := isUnit_iff_ne_zero.2 hu
  refine ⟨fun f => by rw [h1, centralMoments_eq], fun f => ?_, fun k => ⟨_, h2 k, ?_⟩⟩
  · rw [h2, centralMoments_eq, add_sub_cancel_right, mulVec_mulVec, nonsing_inv_mul _ hU, one_mulVec]
  · rw [centralMoments_eq, mulVec_mulVec, mul_nonsing_inv _ hU, one_mulVec, sub_add_cancel]

section main
variable {st : List (List ℤ)} {polys : Fin st.length → MPoly ℤ} {b : Background K D} {s : Setup K D st.length} {u : Fin D → K}

theorem det_of_determined (hu : ∀ f : Fin st.length → K, (∀ i, ∑ q, f q * Spec.polyEval ((polys i).map fun t => ((t.1 : K), t.2))
      (List.ofFn fun a : Fin D => (((st.get q).getD a 0 : ℤ) : K) - u a) = 0) → f = 0) :
    (momentMatrix evP polys (velocity (K := K) (D := D) st) u).det ≠ 0 := by
  intro h0
  obtain ⟨v, hv, hv0⟩ := exists_mulVec_eq_zero_iff.2 h0
  refine hv (hu v fun i => ?_)
  have := congrFun hv0 i
  rw [mulVec, dotProduct] at this
  refine Eq.trans (Finset.sum_congr rfl fun q _ => ?_) this
  rw [polyEval_eq, mul_comm]
  rfl

/-- matrices of a closed set of exponents -/
theorem closed_facts (hst : Spec.FirstNeighbours D st) (hp : Spec.Polynomials D polys)
    (h3 : (monomials polys).length = st.length ∨ D = 3) (hs : setup K D st polys = .ok s)
    (hdc : Chimera.Spec.DownwardClosed (List.ofFn s.exps))
    (hu : (momentMatrix evP polys (velocity (K := K) (D := D) st) u).det ≠ 0) :
    s.P u * momentMatrix evM s.exps (velocity st) u = momentMatrix evP polys (velocity st) u ∧
    momentMatrix evM s.exps (velocity st) u = binMat s.exps u * momentMatrix evM s.exps (velocity st) (0 : Fin D → K) ∧
    (momentMatrix evM s.exps (velocity st) (0 : Fin D → K)).det ≠ 0 ∧ (∀ j, (s.exps j).length = D) ∧
    (∀ j, ∀ a ∈ s.exps j, a < 10) ∧
    setUpShiftMatrix evM s.exps (velocity (K := K) (D := D) st) = .ok (binMat s.exps) ∧ ∀ u : Fin D → K, (binMat s.exps u).det = 1 := by
  obtain ⟨hg, hPA⟩ := setup_good hst.2.1 hp h3 hs
  have hlen : ∀ j, (s.exps j).length = D := by
    intro j
    obtain ⟨i, t, ht, -, h⟩ := mem_monomials.1 (hg.mem j)
    rw [← h]
    exact ((hp i).2 t ht).2.1
  have h10 : ∀ j, ∀ a ∈ s.exps j, a < 10 := by
    intro j
    obtain ⟨i, t, ht, -, h⟩ := mem_monomials.1 (hg.mem j)
    rw [← h]
    exact ((hp i).2 t ht).2.2
  have e1 : s.P u * momentMatrix evM s.exps (velocity st) u = momentMatrix evP polys (velocity st) u := by
    refine hPA u fun N hN => ?_
    obtain ⟨hd, -, -, -⟩ := setUp_ok hN
    obtain ⟨h1, h2⟩ := setUp_closed hg.inj hdc hlen hg.sorted hd
    rw [h1] at hN
    cases hN
    rw [h2]
    exact one_ne_zero
  have e2 : momentMatrix evM s.exps (velocity st) u = binMat s.exps u * momentMatrix evM s.exps (velocity st) (0 : Fin D → K) := by
    ext i q
    rw [mul_apply]
    simp only [momentMatrix_zero]
    exact evM_binMat hg.inj hdc hlen u (velocity st q) i
  have hd : (momentMatrix evM s.exps (velocity st) (0 : Fin D → K)).det ≠ 0 := by
    intro h0
    rw [← e1, e2, det_mul, det_mul, h0, mul_zero, mul_zero] at hu
    exact hu rfl
  obtain ⟨h1, h2⟩ := setUp_closed hg.inj hdc hlen hg.sorted hd
  exact ⟨e1, e2, hd, hlen, h10, h1, h2⟩

/-- C94: whenever the common part of the constructors succeeds for a first-neighbour stencil, for exponents that contain everything below
them, and a background that takes the same moment for a monomial and the kept monomial it is replaced by: the direct summation, the
binomial chimera and the shift matrix transform can be constructed, all three compute the polynomial central moments of
populations plus background, and their backward directions are the inverse, for every velocity for which the central moments determine the
populations. So does the matrix transform, if its constructor succeeds. -/
theorem C94_transforms (hD : 0 < D) (hst : Spec.FirstNeighbours D st) (hp : Spec.Polynomials D polys) (hb : Spec.Consistent b)
    (h3 : (monomials polys).length = st.length ∨ D = 3) (hs : setup K D st polys = .ok s)
    (hdc : Chimera.Spec.DownwardClosed (List.ofFn s.exps)) (hdc' : Chimera.Spec.DownwardClosed (monomials polys))
    (hal : ∀ m ∈ monomials polys, ∃ j, (∀ c ∈ st, Spec.monomial m c = Spec.monomial (s.exps j) c) ∧ b.raw m = b.raw (s.exps j))
    (u : Fin D → K) (hu : ∀ f : Fin st.length → K, (∀ i, ∑ q, f q * Spec.polyEval ((polys i).map fun t => ((t.1 : K), t.2))
      (List.ofFn fun a : Fin D => (((st.get q).getD a 0 : ℤ) : K) - u a) = 0) → f = 0) (free : List Char → K) :
    (∃ t, fast st polys b = .ok t ∧ Computes polys b u t) ∧ (∃ t, binomial st polys b free = .ok t ∧ Computes polys b u t) ∧
    (∃ t, shift st polys b = .ok t ∧ Computes polys b u t) ∧ ∀ t, matrix st polys b = .ok t → Computes polys b u t := by
  have hdet := det_of_determined hu
  obtain ⟨hPA, hAB, hd, hlen, h10, hN, hN1⟩ := closed_facts hst hp h3 hs hdc hdet
  obtain ⟨hg, -⟩ := setup_good hst.2.1 hp h3 hs
  set A := momentMatrix evM s.exps (velocity st) u with hA
  set A0 := momentMatrix evM s.exps (velocity st) (0 : Fin D → K) with hA0
  set B := momentMatrix evP polys (velocity (K := K) (D := D) st) u with hB
  set bcm : Fin st.length → K := fun i => b.centralMoment u (polys i) with hbcm
  have hUA0 : IsUnit A0.det := isUnit_iff_ne_zero.2 hd
  have hUN : IsUnit (binMat s.exps u).det := by rw [hN1]; exact isUnit_one
  have hUP : IsUnit (s.P u).det := by
    refine isUnit_iff_ne_zero.2 fun h0 => hdet ?_
    rw [← hPA, det_mul, h0, zero_mul]
  -- the inverse of the whole
  have hinv : B⁻¹ = A0⁻¹ * (binMat s.exps u)⁻¹ * (s.P u)⁻¹ := by
    rw [← hPA, hAB, Matrix.mul_inv_rev, Matrix.mul_inv_rev]
  -- the background
  have hbg : s.P u *ᵥ (binMat s.exps u *ᵥ fun j => b.raw (s.exps j)) = bcm := by
    set g : Fin st.length → K := A0⁻¹ *ᵥ fun j => b.raw (s.exps j) with hg0
    have hg1 : A0 *ᵥ g = fun j => b.raw (s.exps j) := by rw [hg0, mulVec_mulVec, mul_nonsing_inv _ hUA0, one_mulVec]
    have hg2 : ∀ m ∈ monomials polys, ∑ q, g q * evM m (velocity (K := K) (D := D) st q) = b.raw m := by
      intro m hm
      obtain ⟨j, hj1, hj2⟩ := hal m hm
      rw [hj2, ← congrFun hg1 j, mulVec, dotProduct]
      refine Finset.sum_congr rfl fun q _ => ?_
      rw [evM_velocity st hst.2.1, hj1 _ (List.get_mem _ _), ← evM_velocity (K := K) st hst.2.1, mul_comm, hA0, momentMatrix_zero]
    rw [← hg1, mulVec_mulVec, mulVec_mulVec, Matrix.mul_assoc, ← hAB, hPA]
    funext i
    show _ = ((polys i).map fun t => (t.1 : K) * b.central u t.2).sum
    have e1 : (B *ᵥ g) i = ((polys i).map fun t => (t.1 : K) * ∑ q, g q * evM t.2 (velocity st q - u)).sum := by
      rw [mulVec, dotProduct]
      have : ∀ p : MPoly ℤ, ∑ q, evP p (velocity (K := K) (D := D) st q - u) * g q =
          (p.map fun t => (t.1 : K) * ∑ q, g q * evM t.2 (velocity st q - u)).sum := by
        intro p
        unfold evP
        induction p with
        | nil => simp
        | cons t p ih =>
          simp only [List.map_cons, List.sum_cons, add_mul, Finset.sum_add_distrib, ih]
          congr 1
          rw [Finset.mul_sum]
          exact Finset.sum_congr rfl fun q _ => by ring
      exact this (polys i)
    rw [e1]
    congr 1
    refine List.map_congr_left fun t ht => ?_
    obtain ⟨ht0, htl, -⟩ := (hp i).2 t ht
    rw [hb u t.2 htl]
    congr 1
    simp only [evM_shift u _ t.2 htl]
    rw [← shift_sum (List.ofFn fun a => -u a) Finset.univ g (fun q a => evM a (velocity st q)) t.2]
    exact shift_congr _ _ _ _ fun a ha => hg2 a (hdc' _ (mem_monomials.2 ⟨i, t, ht, ht0, rfl⟩) a ha)
  have hbg' : B⁻¹ *ᵥ bcm = A0⁻¹ *ᵥ fun j => b.raw (s.exps j) := by
    rw [← hbg, hinv]
    simp only [mulVec_mulVec, Matrix.mul_assoc]
    rw [← Matrix.mul_assoc (s.P u)⁻¹, nonsing_inv_mul _ hUP, Matrix.one_mul, nonsing_inv_mul _ hUN, Matrix.mul_one]
  have hraw : ∀ f, rawForward D st b s.exps f = A0 *ᵥ f + fun j => b.raw (s.exps j) := by
    intro f
    funext j
    rw [rawForward, sums_raw hD hst hlen h10]
    rfl
  have hfw : ∀ f, s.P u *ᵥ (binMat s.exps u *ᵥ rawForward D st b s.exps f) = B *ᵥ f + bcm := by
    intro f
    rw [hraw, mulVec_add, mulVec_add, hbg, ← hPA, hAB]
    simp only [mulVec_mulVec]
  have hbw : ∀ k, rawBackward st b s.exps ((binMat s.exps u)⁻¹ *ᵥ ((s.P u)⁻¹ *ᵥ k)) = B⁻¹ *ᵥ (k - bcm) := by
    intro k
    rw [mulVec_sub, hbg', hinv, rawBackward]
    rw [show (fun j => ((binMat s.exps u)⁻¹ *ᵥ ((s.P u)⁻¹ *ᵥ k)) j - b.raw (s.exps j)) =
      (binMat s.exps u)⁻¹ *ᵥ ((s.P u)⁻¹ *ᵥ k) - fun j => b.raw (s.exps j) from rfl, mulVec_sub]
    simp only [mulVec_mulVec]
    rw [Matrix.mul_assoc A0⁻¹]
  refine ⟨?_, ?_, ?_, ?_⟩
  · unfold fast
    rw [hs]
    dsimp only
    rw [hN]
    refine ⟨_, rfl, computes_of hdet (fun f => congrArg Except.ok ?_) fun k => congrArg Except.ok ?_⟩
    · rw [sums_central hD hst hlen h10, mulVec_mulVec, hPA]
      rfl
    · rw [mulVec_mulVec, ← hinv]
      rfl
  · unfold binomial
    rw [hs]
    dsimp only
    rw [if_neg hd]
    refine ⟨_, rfl, computes_of hdet (fun f => ?_) fun k => ?_⟩
    · dsimp only
      rw [binomialStep_eq hg.inj hdc hlen h10]
      exact congrArg Except.ok (hfw f)
    · have hneg : binMat s.exps (-u) = (binMat s.exps u)⁻¹ := by
        refine (Matrix.inv_eq_right_inv ?_).symm
        ext i j
        have h1 := binMat_mul hg.inj hdc u (fun a => Chimera.Spec.shift (List.ofFn fun a => u a)
          (fun e => if e = s.exps j then (1 : K) else 0) a) i
        have h2 : (binMat s.exps u * binMat s.exps (-u)) i j = (binMat s.exps u *ᵥ fun k => Chimera.Spec.shift (List.ofFn fun a => u a)
          (fun e => if e = s.exps j then (1 : K) else 0) (s.exps k)) i := by
          rw [mul_apply, mulVec, dotProduct]
          refine Finset.sum_congr rfl fun k _ => ?_
          simp [binMat]
        rw [h2, h1, shift_shift _ _ _ _ (by simp), shift_zero]
        · rw [one_apply]
          by_cases hij : i = j
          · rw [if_pos (by rw [hij]), if_pos hij]
          · rw [if_neg fun h => hij (hg.inj h), if_neg hij]
        · intro v hv
          obtain ⟨n, hn, rfl⟩ := List.mem_iff_getElem.1 hv
          simp
      dsimp only
      have := binomialStep_eq hg.inj hdc hlen h10 (-u) free ((s.P u)⁻¹ *ᵥ k)
      simp only [Pi.neg_apply, neg_neg] at this
      rw [show binomialStep u s.exps free ((s.P u)⁻¹ *ᵥ k) = binomialStep (fun a => u a) s.exps free ((s.P u)⁻¹ *ᵥ k) from rfl,
        this, hneg]
      exact congrArg Except.ok (hbw k)
  · unfold shift
    rw [hs]
    dsimp only
    rw [if_neg hd, hN]
    exact ⟨_, rfl, computes_of hdet (fun f => congrArg Except.ok (hfw f)) fun k => congrArg Except.ok (hbw k)⟩
  · intro t ht
    unfold matrix at ht
    split at ht
    · cases ht
    rename_i tm htm
    cases ht
    unfold matrixTransform at htm
    cases hNP : setUpShiftMatrix evP polys (velocity (K := K) (D := D) st) with
    | error e => rw [hNP] at htm; cases htm
    | ok NP =>
      rw [hNP] at htm
      cases htm
      obtain ⟨hd', rfl, -, -⟩ := setUp_ok hNP
      refine computes_of hdet (fun f => congrArg Except.ok ?_) fun k => congrArg Except.ok ?_
      · dsimp only
        rw [shiftMatrix_mul hd' u]
        rfl
      · dsimp only
        rw [← Matrix.mul_inv_rev, shiftMatrix_mul hd' u]
        rfl

end main

end CentralTransforms
end Lbm
