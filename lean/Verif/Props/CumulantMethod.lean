/-
C54: the collision operator of cumulant-based methods.
-/
import Verif.CumulantMethod
import Verif.Props.CumulantTransform
import Verif.Props.ShiftMatrix
import Verif.Props.Continuous
import Mathlib.Algebra.BigOperators.Pi

namespace Lbm

namespace Spec

/-- `rho` times a polynomial in the derivatives of the logarithm of the generating function of the populations -/
noncomputable def cumulantOf {D : ℕ} (S : Stencil D) (rho : ℝ) (g : Fin S.Q → ℝ) (p : PExpr) : ℝ :=
  rho * (p.expand.map fun t => (t.1 : ℝ) * discreteCumulant S g fun a => t.2.getD a 0).sum

/-- a polynomial in the first `D` variables -/
def InDimension (D : ℕ) (p : PExpr) : Prop := ∀ t ∈ p.expand, ∀ k, D ≤ k → t.2.getD k 0 = 0

end Spec

namespace PExpr

theorem addTerm_mem (c : ℤ) (m : List ℕ) (p : MPoly ℤ) : ∀ t ∈ (addTerm c m p).map Prod.snd, t = m ∨ t ∈ p.map Prod.snd := by
  induction p with
  | nil => rw [addTerm]; split <;> simp
  | cons t p ih =>
    obtain ⟨d, n⟩ := t
    rw [addTerm]
    split
    · split
      · intro t ht; exact Or.inr (List.mem_cons_of_mem _ ht)
      · intro t ht; exact Or.inr ht
    · intro t ht
      rw [List.map_cons, List.mem_cons] at ht
      rcases ht with rfl | ht
      · exact Or.inr List.mem_cons_self
      · rcases ih t ht with h | h
        · exact Or.inl h
        · exact Or.inr (List.mem_cons_of_mem _ h)

theorem addTerm_nodup (c : ℤ) (m : List ℕ) (p : MPoly ℤ) (h : (p.map Prod.snd).Nodup) : ((addTerm c m p).map Prod.snd).Nodup := by
  induction p with
  | nil => rw [addTerm]; split <;> simp
  | cons t p ih =>
    obtain ⟨d, n⟩ := t
    rw [List.map_cons, List.nodup_cons] at h
    rw [addTerm]
    split
    · split
      · exact h.2
      · exact List.nodup_cons.2 h
    · rename_i hne
      rw [List.map_cons, List.nodup_cons]
      refine ⟨fun hm => ?_, ih h.2⟩
      rcases addTerm_mem c m p _ hm with h1 | h1
      · exact hne h1
      · exact h.1 h1

theorem addTerm_ne_zero (c : ℤ) (m : List ℕ) (p : MPoly ℤ) (h : ∀ t ∈ p, t.1 ≠ 0) : ∀ t ∈ addTerm c m p, t.1 ≠ 0 := by
  induction p with
  | nil => rw [addTerm]; split <;> simp_all
  | cons t p ih =>
    obtain ⟨d, n⟩ := t
    have h' : ∀ t ∈ p, t.1 ≠ 0 := fun t ht => h t (List.mem_cons_of_mem _ ht)
    rw [addTerm]
    split
    · split
      · exact h'
      · rename_i hd
        intro t ht
        rcases List.mem_cons.1 ht with rfl | ht
        · exact hd
        · exact h' t ht
    · intro t ht
      rcases List.mem_cons.1 ht with rfl | ht
      · exact h _ List.mem_cons_self
      · exact ih h' t ht

/-- collected terms: distinct monomials, non-zero coefficients -/
def Collected (p : MPoly ℤ) : Prop := (p.map Prod.snd).Nodup ∧ ∀ t ∈ p, t.1 ≠ 0

theorem Collected.addTerm {p : MPoly ℤ} (h : Collected p) (c : ℤ) (m : List ℕ) : Collected (addTerm c m p) :=
  ⟨addTerm_nodup c m p h.1, addTerm_ne_zero c m p h.2⟩

theorem Collected.addMul {p : MPoly ℤ} (h : Collected p) (c : ℤ) (m : List ℕ) (q : MPoly ℤ) : Collected (addMul c m q p) := by
  unfold PExpr.addMul
  induction q generalizing p with
  | nil => exact h
  | cons t q ih => exact ih (h.addTerm _ _)

theorem collected_mulM (p q : MPoly ℤ) : Collected (mulM p q) := by
  unfold mulM
  have : ∀ r, Collected r → Collected (p.foldl (fun r t => PExpr.addMul t.1 t.2 q r) r) := by
    induction p with
    | nil => exact fun r h => h
    | cons t p ih => exact fun r h => ih _ (h.addMul _ _ _)
  exact this [] ⟨List.nodup_nil, by simp⟩

theorem collected_expand (p : PExpr) : Collected p.expand := by
  induction p with
  | const n => exact Collected.addTerm (p := []) ⟨List.nodup_nil, by simp⟩ _ _
  | var i => exact ⟨by simp [expand], by simp [expand]⟩
  | add a b iha _ => exact iha.addMul _ _ _
  | sub a b iha _ => exact iha.addMul _ _ _
  | mul a b _ _ => exact collected_mulM _ _
  | pow a n _ =>
    rw [expand]
    cases n with
    | zero => exact ⟨by simp [powM], by simp [powM]⟩
    | succ n => exact collected_mulM _ _

end PExpr

namespace CumulantMethod

open Matrix CumulantTransform

variable {D : ℕ} {S : Stencil D}

/-! ### The transform as sums over the terms of the polynomials -/

theorem coefficient_eq {p : PExpr} (hd : Spec.InDimension D p) (hD : D ≤ 3) {e : List ℕ} (he : e.length = D) :
    coefficient e p = (p.expand.map fun t => if t.2.take D = e then t.1 else 0).sum := by
  have hc := PExpr.collected_expand p
  have hl := (PExpr.expand_spec (R := ℤ) p).1
  unfold Spec.InDimension at hd
  unfold coefficient
  generalize p.expand = l at hd hc hl
  subst he
  have hinj : ∀ t ∈ l, ∀ s ∈ l, t.2.take e.length = s.2.take e.length → t.2 = s.2 := by
    intro t ht s hs h
    apply List.ext_getElem
    · rw [hl t ht, hl s hs]
    intro k h1 h2
    by_cases hk : k < e.length
    · have := congrArg (fun l => l.getD k 0) h
      rw [List.getD_eq_getElem _ _ (by rw [List.length_take]; omega), List.getD_eq_getElem _ _ (by rw [List.length_take]; omega),
        List.getElem_take, List.getElem_take] at this
      exact this
    · have e1 := hd t ht k (by omega)
      have e2 := hd s hs k (by omega)
      rw [List.getD_eq_getElem _ _ h1] at e1
      rw [List.getD_eq_getElem _ _ h2] at e2
      rw [e1, e2]
  clear hd hl
  induction l with
  | nil => rfl
  | cons t l ih =>
    have hc' : PExpr.Collected l := ⟨(List.nodup_cons.1 hc.1).2, fun s hs => hc.2 s (List.mem_cons_of_mem _ hs)⟩
    have ih := ih hc' fun t ht s hs => hinj t (List.mem_cons_of_mem _ ht) s (List.mem_cons_of_mem _ hs)
    rw [List.find?_cons, List.map_cons, List.sum_cons]
    by_cases h : t.2.take e.length = e
    · rw [if_pos h]
      simp only [h, beq_self_eq_true]
      have hz : (l.map fun t => if t.2.take e.length = e then t.1 else 0).sum = 0 := by
        rw [List.map_congr_left (g := fun _ => (0 : ℤ))]
        · simp
        · intro s hs
          rw [if_neg]
          intro h'
          have := hinj t List.mem_cons_self s (List.mem_cons_of_mem _ hs) (h.trans h'.symm)
          exact (List.nodup_cons.1 hc.1).1 (this ▸ List.mem_map_of_mem hs)
      rw [hz, add_zero]
    · rw [if_neg h, zero_add]
      have : (t.2.take e.length == e) = false := by simpa using h
      rw [this]
      exact ih

theorem sum_getD {Q : ℕ} {α : Type} [Inhabited α] (l : List α) (h : l.length = Q) (x : α) (g : α → ℝ) :
    ∑ j : Fin Q, g (l.getD j x) = (l.map g).sum := by
  subst h
  rw [← List.sum_ofFn]
  congr 1
  apply List.ext_getElem
  · simp
  · intro i h1 h2
    simp at h1
    rw [List.getElem_ofFn, List.getElem_map, List.getD_eq_getElem _ _ h1]

theorem sum_indicator {l : List (List ℕ)} (hn : l.Nodup) {a : List ℕ} (ha : a ∈ l) (c : ℝ) (X : List ℕ → ℝ) :
    (l.map fun e => (if a = e then c else 0) * X e).sum = c * X a := by
  induction l with
  | nil => simp at ha
  | cons b l ih =>
    rw [List.map_cons, List.sum_cons]
    by_cases h : a = b
    · subst h
      rw [if_pos rfl, List.map_congr_left (g := fun _ => (0 : ℝ))]
      · simp
      · intro e he
        rw [if_neg, zero_mul]
        rintro rfl
        exact (List.nodup_cons.1 hn).1 he
    · rw [if_neg h, zero_mul, zero_add]
      exact ih (List.nodup_cons.1 hn).2 ((List.mem_cons.1 ha).resolve_left h)

/-- the matrix of the transform, applied to values of the monomials, gives the values of the polynomials -/
theorem monoToPoly_mulVec {Q : ℕ} {polys : List PExpr} {t : Transform Q} (hD : D ≤ 3) (h : construct D Q polys = .ok t)
    (hp : ∀ p ∈ polys, Spec.InDimension D p) (X : List ℕ → ℝ) (i : Fin Q) :
    (t.monoToPoly *ᵥ fun j : Fin Q => X (t.exponents.getD j [])) i =
      ((polys.getD i 0).expand.map fun s => (s.1 : ℝ) * X (s.2.take D)).sum := by
  obtain ⟨h1, -, h3, h4, -, h6, -, -⟩ := construct_ok h
  have hlen := exponents_length hD h
  have hn := (C51_constructor h).1
  have hi : (i : ℕ) < polys.length := by rw [h4]; exact i.isLt
  have hmem : polys.getD i 0 ∈ polys := by rw [List.getD_eq_getElem _ _ hi]; exact List.getElem_mem hi
  rw [h6]
  simp only [mulVec, dotProduct, monoToPoly]
  rw [sum_getD t.exponents h3 [] fun e => ((coefficient e (polys.getD i 0) : ℤ) : ℝ) * X e]
  generalize hq : polys.getD i 0 = p at hmem
  have hc : ∀ e ∈ t.exponents, ((coefficient e p : ℤ) : ℝ) * X e =
      (p.expand.map fun s => (if s.2.take D = e then (s.1 : ℝ) else 0) * X e).sum := by
    intro e he
    rw [coefficient_eq (hp p hmem) hD (hlen e he), Int.cast_list_sum, List.map_map, ← List.sum_map_mul_right]
    congr 1
    refine List.map_congr_left fun s _ => ?_
    simp only [Function.comp]
    split <;> simp
  rw [List.map_congr_left hc]
  have hin : ∀ s ∈ p.expand, s.2.take D ∈ t.exponents := by
    intro s hs
    rw [h1, Chimera.extractMonomials, List.mem_dedup, List.mem_flatMap]
    exact ⟨p, hmem, List.mem_map.2 ⟨s, List.mem_filter.2 ⟨hs, by simpa using (PExpr.collected_expand p).2 s hs⟩, rfl⟩⟩
  generalize p.expand = l at hin
  induction l with
  | nil => simp
  | cons s l ih =>
    have ih := ih fun s hs => hin s (List.mem_cons_of_mem _ hs)
    simp only [List.map_cons, List.sum_cons]
    rw [List.sum_map_add, ih, sum_indicator hn (hin s List.mem_cons_self)]

theorem toIndex_ofFn (i : Fin D → ℕ) : toIndex D (List.ofFn i) = i := by
  funext a
  simp [toIndex]

/-- the forward transform reads only the required central moments -/
theorem forward_congr {Q : ℕ} {polys : List PExpr} {t : Transform Q} (hD : D ≤ 3) (h : construct D Q polys = .ok t) (rho : ℝ)
    (u : Fin D → ℝ) {k k' : List ℕ → ℝ} (hk : ∀ e ∈ t.required, k e = k' e) :
    forwardTransform D t rho u k = forwardTransform D t rho u k' := by
  obtain ⟨hn, -, hmem, hdc, -⟩ := C51_constructor h
  have hlen := exponents_length hD h
  obtain ⟨-, -, h3, -⟩ := construct_ok h
  unfold forwardTransform
  congr 1
  funext j
  have hj : (j : ℕ) < t.exponents.length := by rw [h3]; exact j.isLt
  have he : t.exponents.getD j [] ∈ t.exponents := by rw [List.getD_eq_getElem _ _ hj]; exact List.getElem_mem hj
  unfold cumulantFromCentralMoments
  congr 1
  refine value_congr _ _ _ _ fun b hb => hk _ ((hmem _).2 (hdc _ he _ (forall₂_ofFn (hlen _ he) ?_)))
  exact (C51_reads _).1 b hb

/-- the forward transform of central moments of populations: polynomials in their cumulants -/
theorem forward_populations {polys : List PExpr} {t : Transform S.Q} (hD : D ≤ 3) (h : construct D S.Q polys = .ok t)
    (hp : ∀ p ∈ polys, Spec.InDimension D p) (rho : ℝ) (u : Fin D → ℝ) (g : Fin S.Q → ℝ) (hg : ∑ q, g q ≠ 0) (i : Fin S.Q) :
    forwardTransform D t rho u (fun e => Spec.momentAbout S g u (toIndex D e)) i = Spec.cumulantOf S rho g (polys.getD i 0) := by
  unfold forwardTransform
  have : (fun j : Fin S.Q => cumulantFromCentralMoments rho u (fun i => Spec.momentAbout S g u (toIndex D (List.ofFn i)))
      (toIndex D (t.exponents.getD j []))) = fun j : Fin S.Q => rho * discreteCumulant S g (toIndex D (t.exponents.getD j [])) := by
    funext j
    simp only [toIndex_ofFn]
    exact C51_populations S g hg rho u _
  rw [this]
  have := monoToPoly_mulVec hD h hp (fun e => rho * discreteCumulant S g (toIndex D e)) i
  rw [this, Spec.cumulantOf, ← List.sum_map_mul_left]
  congr 1
  refine List.map_congr_left fun s _ => ?_
  have e : toIndex D (s.2.take D) = fun a : Fin D => s.2.getD a 0 := by
    funext a
    simp only [toIndex, List.getD_eq_getElem?_getD]
    rw [List.getElem?_take_of_lt a.isLt]
  rw [e]
  ring

/-! ### The order of the central moments -/

theorem lexLe_total (a b : List ℕ) : lexLe a b = true ∨ lexLe b a = true := by
  induction a generalizing b with
  | nil => exact Or.inl rfl
  | cons x a ih =>
    cases b with
    | nil => exact Or.inr rfl
    | cons y b =>
      simp only [lexLe, Bool.or_eq_true, decide_eq_true_eq, Bool.and_eq_true, beq_iff_eq]
      rcases lt_trichotomy x y with h | h | h
      · exact Or.inl (Or.inl h)
      · rcases ih b with h' | h'
        · exact Or.inl (Or.inr ⟨h, h'⟩)
        · exact Or.inr (Or.inr ⟨h.symm, h'⟩)
      · exact Or.inr (Or.inl h)

theorem lexLe_trans {a b c : List ℕ} (h1 : lexLe a b = true) (h2 : lexLe b c = true) : lexLe a c = true := by
  induction a generalizing b c with
  | nil => rfl
  | cons x a ih =>
    cases b with
    | nil => simp [lexLe] at h1
    | cons y b =>
      cases c with
      | nil => simp [lexLe] at h2
      | cons z c =>
        simp only [lexLe, Bool.or_eq_true, decide_eq_true_eq, Bool.and_eq_true, beq_iff_eq] at h1 h2 ⊢
        rcases h1 with h1 | ⟨rfl, h1⟩ <;> rcases h2 with h2 | ⟨rfl, h2⟩
        · exact Or.inl (h1.trans h2)
        · exact Or.inl h1
        · exact Or.inl h2
        · exact Or.inr ⟨rfl, ih h1 h2⟩

/-- comparison of exponents by their sort key -/
def keyLe (a b : List ℕ) : Prop := lexLe (sortKey a) (sortKey b) = true

instance : DecidableRel keyLe := fun a b => inferInstanceAs (Decidable (lexLe (sortKey a) (sortKey b) = true))

instance : Std.Total keyLe := ⟨fun a b => lexLe_total _ _⟩

instance : IsTrans (List ℕ) keyLe := ⟨fun _ _ _ => lexLe_trans⟩

theorem sortExponents_perm (l : List (List ℕ)) : (sortExponents l).Perm l := List.perm_insertionSort _ l

theorem sortExponents_pairwise (l : List (List ℕ)) : (sortExponents l).Pairwise keyLe := List.pairwise_insertionSort keyLe l

theorem keyLe_sum {a b : List ℕ} (h : keyLe a b) : a.sum ≤ b.sum := by
  simp only [keyLe, sortKey, lexLe, List.cons_append, Bool.or_eq_true, decide_eq_true_eq, Bool.and_eq_true, beq_iff_eq] at h
  rcases h with h | ⟨h, -⟩
  · exact h.le
  · exact h.le

/-- exponents of order at most one, in the order of the variables -/
def lowExponents (D : ℕ) : List (List ℕ) :=
  List.replicate D 0 :: (List.range D).map fun a => (List.replicate D 0).set a 1

theorem sorted_split (l : List (List ℕ)) (h : l.Pairwise fun a b => a.sum ≤ b.sum) :
    l = l.filter (fun a => a.sum ≤ 1) ++ l.filter fun a => ¬ a.sum ≤ 1 := by
  induction l with
  | nil => rfl
  | cons a l ih =>
    rw [List.pairwise_cons] at h
    by_cases ha : a.sum ≤ 1
    · simp only [List.filter_cons, ha, decide_true, if_true, not_true_eq_false, decide_false, Bool.false_eq_true, if_false,
        List.cons_append]
      rw [← ih h.2]
    · have h1 : l.filter (fun a => a.sum ≤ 1) = [] := by
        rw [List.filter_eq_nil_iff]
        intro b hb
        have := h.1 b hb
        simp only [decide_eq_true_eq]
        omega
      have h2 : l.filter (fun a => ¬ a.sum ≤ 1) = l := by
        rw [List.filter_eq_self]
        intro b hb
        have := h.1 b hb
        simp only [decide_eq_true_eq]
        omega
      rw [List.filter_cons_of_neg (by simpa using ha), List.filter_cons_of_pos (by simpa using ha), h1, h2]
      rfl

theorem mem_lowExponents (hD : D ≤ 3) {e : List ℕ} (he : e.length = D) (hs : e.sum ≤ 1) : e ∈ lowExponents D := by
  subst he
  match e, hD with
  | [], _ => decide
  | [a], _ =>
    simp only [List.sum_cons, List.sum_nil] at hs
    have : a = 0 ∨ a = 1 := by omega
    rcases this with rfl | rfl <;> decide
  | [a, b], _ =>
    simp only [List.sum_cons, List.sum_nil] at hs
    have : (a = 0 ∧ b = 0) ∨ (a = 1 ∧ b = 0) ∨ (a = 0 ∧ b = 1) := by omega
    rcases this with ⟨rfl, rfl⟩ | ⟨rfl, rfl⟩ | ⟨rfl, rfl⟩ <;> decide
  | [a, b, c], _ =>
    simp only [List.sum_cons, List.sum_nil] at hs
    have : (a = 0 ∧ b = 0 ∧ c = 0) ∨ (a = 1 ∧ b = 0 ∧ c = 0) ∨ (a = 0 ∧ b = 1 ∧ c = 0) ∨ (a = 0 ∧ b = 0 ∧ c = 1) := by omega
    rcases this with ⟨rfl, rfl, rfl⟩ | ⟨rfl, rfl, rfl⟩ | ⟨rfl, rfl, rfl⟩ | ⟨rfl, rfl, rfl⟩ <;> decide
  | _ :: _ :: _ :: _ :: _, h => simp at h; omega

theorem lowExponents_facts (h1 : 1 ≤ D) (hD : D ≤ 3) : (lowExponents D).Nodup ∧ (lowExponents D).Pairwise keyLe ∧
    (∀ a ∈ lowExponents D, ∀ b ∈ lowExponents D, keyLe a b → keyLe b a → a = b) ∧
    (∀ a ∈ lowExponents D, a ∈ (momentsUpToOrder 1 D).getD [] ∧ a.sum ≤ 1) := by
  interval_cases D <;> refine ⟨?_, ?_, ?_, ?_⟩ <;> decide +kernel

/-- C54: whatever the cumulants, the list of central moments starts with those of order zero and one, the latter in the order of the
variables. -/
theorem C54_order {Q : ℕ} {polys : List PExpr} {t : Transform Q} (hD1 : 1 ≤ D) (hD : D ≤ 3)
    (h : construct D Q polys = .ok t) :
    ∃ l, sortExponents t.required = lowExponents D ++ l := by
  obtain ⟨-, hr, hmem, -, hlow⟩ := C51_constructor h
  have hlen := exponents_length hD h
  obtain ⟨f1, f2, f3, f4⟩ := lowExponents_facts hD1 hD
  have hp := sortExponents_perm t.required
  have hs := sortExponents_pairwise t.required
  have hsplit := sorted_split (sortExponents t.required) (hs.imp fun h => keyLe_sum h)
  refine ⟨(sortExponents t.required).filter fun a => ¬ a.sum ≤ 1, ?_⟩
  have hlo : (sortExponents t.required).filter (fun a => a.sum ≤ 1) = lowExponents D := by
    refine List.Perm.eq_of_pairwise (le := keyLe) ?_ (hs.filter _) f2 ?_
    · intro a b ha hb
      refine f3 a ?_ b hb
      rw [List.mem_filter] at ha
      exact mem_lowExponents hD (hlen a ((hmem a).1 (hp.subset ha.1))) (by simpa using ha.2)
    · rw [List.perm_ext_iff_of_nodup ((hp.nodup_iff.2 hr).filter _) f1]
      intro a
      rw [List.mem_filter, hp.mem_iff]
      constructor
      · rintro ⟨h1, h2⟩
        exact mem_lowExponents hD (hlen a ((hmem a).1 h1)) (by simpa using h2)
      · intro ha
        exact ⟨(hmem a).2 (hlow a (f4 a ha).1), by simpa using (f4 a ha).2⟩
  rw [hlo] at hsplit
  exact hsplit

/-! ### Central moments and populations -/

theorem evMono_toIndex (e : List ℕ) (v : Fin D → ℝ) : evMono e v = ∏ a, v a ^ toIndex D e a := rfl

theorem pdfsToCentral_mulVec (cms : List (List ℕ)) (u : Fin D → ℝ) (g : Fin S.Q → ℝ) (i : Fin S.Q) :
    (Method.pdfsToCentral S cms u *ᵥ g) i = Spec.momentAbout S g u (toIndex D (cms.getD i [])) := by
  simp only [Method.pdfsToCentral, mulVec, dotProduct, CentralMoments.momentMatrix, Spec.momentAbout, evMono_toIndex, velocities]
  exact Finset.sum_congr rfl fun q _ => mul_comm _ _

theorem momentAbout_add (g h : Fin S.Q → ℝ) (u : Fin D → ℝ) (e : Fin D → ℕ) :
    Spec.momentAbout S (g + h) u e = Spec.momentAbout S g u e + Spec.momentAbout S h u e := by
  simp [Spec.momentAbout, add_mul, Finset.sum_add_distrib]

/-- moments about the origin from those about `u` -/
theorem momentAbout_expand (g : Fin S.Q → ℝ) (u : Fin D → ℝ) (e : Fin D → ℕ) :
    Spec.momentAbout S g 0 e = ∑ k ∈ Fintype.piFinset fun a => Finset.range (e a + 1),
      (∏ a, u a ^ (e a - k a) * ((e a).choose (k a) : ℝ)) * Spec.momentAbout S g u k := by
  simp only [Spec.momentAbout, Finset.mul_sum]
  rw [Finset.sum_comm]
  refine Finset.sum_congr rfl fun q _ => ?_
  have : ∀ a, ((S.c q a : ℝ) - (0 : Fin D → ℝ) a) ^ e a =
      ∑ k ∈ Finset.range (e a + 1), ((S.c q a : ℝ) - u a) ^ k * u a ^ (e a - k) * ((e a).choose k : ℝ) := by
    intro a
    rw [← add_pow]
    simp
  rw [Finset.prod_congr rfl fun a _ => this a, Finset.prod_univ_sum, Finset.mul_sum]
  refine Finset.sum_congr rfl fun k _ => ?_
  rw [mul_left_comm, ← Finset.prod_mul_distrib]
  congr 1
  exact Finset.prod_congr rfl fun a _ => by ring

/-- exponents in a list without repetitions, as values at positions -/
theorem symbolValue_get {Q : ℕ} {cms : List (List ℕ)} (hn : cms.Nodup) (hl : cms.length = Q) (v : Fin Q → ℝ) (i : Fin Q) :
    Method.symbolValue cms v (cms.getD i []) = v i := by
  have hi : (i : ℕ) < cms.length := by rw [hl]; exact i.isLt
  have : cms.idxOf (cms.getD i []) = i := by
    rw [List.getD_eq_getElem _ _ hi]
    exact hn.idxOf_getElem i hi
  rw [Method.symbolValue, dif_pos (by rw [this]; exact i.isLt)]
  congr 1
  exact Fin.ext this

theorem exists_position {Q : ℕ} {cms : List (List ℕ)} (hl : cms.length = Q) {e : List ℕ} (he : e ∈ cms) :
    ∃ i : Fin Q, cms.getD i [] = e ∧ (i : ℕ) = cms.idxOf e := by
  have h := List.idxOf_lt_length_of_mem he
  refine ⟨⟨cms.idxOf e, by omega⟩, ?_, rfl⟩
  simp only
  rw [List.getD_eq_getElem _ _ h]
  exact List.getElem_idxOf h

/-- C54: if the raw moments determine the populations, the central moments about every velocity do: the transform is invertible for
every fluid velocity. -/
theorem C54_regular {polys : List PExpr} {t : Transform S.Q} (hD : D ≤ 3) (h : construct D S.Q polys = .ok t)
    (h0 : (Method.pdfsToCentral S (sortExponents t.required) 0).det ≠ 0) (u : Fin D → ℝ) :
    (Method.pdfsToCentral S (sortExponents t.required) u).det ≠ 0 := by
  obtain ⟨-, hr, hmem, hdc, -⟩ := C51_constructor h
  have hlen := exponents_length hD h
  have hl : (sortExponents t.required).length = S.Q := by rw [(sortExponents_perm _).length_eq, (construct_ok h).2.2.2.2.1]
  intro hu
  obtain ⟨g, hg, hg0⟩ := exists_mulVec_eq_zero_iff.2 hu
  refine h0 (exists_mulVec_eq_zero_iff.1 ⟨g, hg, ?_⟩)
  have hz : ∀ e ∈ t.exponents, Spec.momentAbout S g u (toIndex D e) = 0 := by
    intro e he
    obtain ⟨i, hi, -⟩ := exists_position hl ((sortExponents_perm _).mem_iff.2 ((hmem e).2 he))
    have := congrFun hg0 i
    rwa [pdfsToCentral_mulVec, hi] at this
  funext i
  rw [pdfsToCentral_mulVec, momentAbout_expand g u]
  refine Finset.sum_eq_zero fun k hk => ?_
  have he : (sortExponents t.required).getD i [] ∈ t.exponents := by
    rw [← hmem, ← (sortExponents_perm _).mem_iff, List.getD_eq_getElem _ _ (by rw [hl]; exact i.isLt)]
    exact List.getElem_mem _
  have hk' : k ≤ toIndex D ((sortExponents t.required).getD i []) := by
    intro a
    have := Fintype.mem_piFinset.1 hk a
    exact Nat.lt_succ_iff.1 (Finset.mem_range.1 this)
  have := hz _ (hdc _ he _ (forall₂_ofFn (hlen _ he) hk'))
  rw [toIndex_ofFn] at this
  rw [this, mul_zero]

/-! ### One collision -/

namespace Method

/-- the stored values plus `w` are the populations: `w` has the central moments of the background distribution -/
def Storage (m : Method S) (w : Fin S.Q → ℝ) : Prop :=
  if m.zeroCentered then m.deviationOnly = false ∧ ∃ b, m.background = some b ∧
    ∀ u, ∀ e ∈ requiredCentralMoments D (Chimera.extractMonomials D m.cumulants), b u e = Spec.momentAbout S w u (toIndex D e)
  else w = 0

/-- what the force model adds to a central moment before and after the relaxation -/
noncomputable def forceTerms (m : Method S) (inc : Bool) (f : Fin S.Q → ℝ) (e : Fin D → ℕ) : ℝ × ℝ :=
  match inc, m.force with
  | true, some (.full pop) => (0, Spec.momentAbout S (pop f) (m.vel f) e)
  | true, some (.halves pop) => (1 / 2 * Spec.momentAbout S (pop f) (m.vel f) e, 1 / 2 * Spec.momentAbout S (pop f) (m.vel f) e)
  | true, some (.first F) => (∑ a, if e = Pi.single a 1 then 1 / 2 * F a else 0, ∑ a, if e = Pi.single a 1 then 1 / 2 * F a else 0)
  | true, some (.continuous cm) => (1 / 2 * cm f (List.ofFn e), 1 / 2 * cm f (List.ofFn e))
  | _, _ => (0, 0)

end Method

theorem firstEntries_getD (Q : ℕ) (F : Fin D → ℝ) (i : ℕ) (hi : i < Q) :
    (Forcing.firstEntries Q F).getD i 0 = ∑ a : Fin D, if i = a.val + 1 then 1 / 2 * F a else 0 := by
  have key : ∀ (l : List (Fin D)) (v : List ℝ), v.length = Q → l.Nodup →
      (l.foldl (fun l (i : Fin D) => l.set (i.val + 1) (1 / 2 * F i)) v).getD i 0 =
        if ∃ a ∈ l, i = a.val + 1 then (∑ a : Fin D, if i = a.val + 1 then 1 / 2 * F a else 0) else v.getD i 0 := by
    intro l
    induction l with
    | nil => intro v _ _; simp
    | cons b l ih =>
      intro v hv hn
      rw [List.foldl_cons, ih _ (by simpa using hv) (List.nodup_cons.1 hn).2]
      by_cases h : ∃ a ∈ l, i = a.val + 1
      · rw [if_pos h, if_pos]
        obtain ⟨a, ha, h⟩ := h
        exact ⟨a, List.mem_cons_of_mem _ ha, h⟩
      · rw [if_neg h]
        by_cases hb : i = b.val + 1
        · rw [if_pos ⟨b, List.mem_cons_self, hb⟩, Finset.sum_eq_single b]
          · rw [if_pos hb, List.getD_eq_getElem _ _ (by simpa [hv] using hi), List.getElem_set, if_pos hb.symm]
          · intro c _ hc
            rw [if_neg]
            intro h'
            exact hc (Fin.ext (by omega))
          · simp
        · rw [if_neg]
          · simp only [List.getD_eq_getElem?_getD]
            rw [List.getElem?_set_ne (fun h' => hb h'.symm)]
          · rintro ⟨a, ha, h'⟩
            rcases List.mem_cons.1 ha with rfl | ha
            · exact hb h'
            · exact h ⟨a, ha, h'⟩
  unfold Forcing.firstEntries
  rw [key _ _ (by simp) (List.nodup_finRange D)]
  split
  · rfl
  · rename_i h
    rw [List.getD_eq_getElem _ _ (by simpa using hi), List.getElem_replicate]
    symm
    refine Finset.sum_eq_zero fun a _ => if_neg fun h' => h ⟨a, List.mem_finRange a, h'⟩

theorem toIndex_unit (a : Fin D) : toIndex D ((List.replicate D 0).set a 1) = Pi.single a 1 := by
  funext b
  rw [toIndex, List.getD_eq_getElem _ _ (by simp), List.getElem_set]
  by_cases h : a = b
  · subst h; simp
  · rw [if_neg (fun h' => h (Fin.ext h')), List.getElem_replicate, Pi.single_eq_of_ne (fun h' => h h'.symm)]

theorem toIndex_zero : toIndex D (List.replicate D 0) = 0 := by
  funext b
  rw [toIndex, List.getD_eq_getElem _ _ (by simp), List.getElem_replicate]
  rfl

theorem low_getD (a : Fin D) (l : List (List ℕ)) : (lowExponents D ++ l).getD (a.val + 1) [] = (List.replicate D 0).set a 1 := by
  rw [lowExponents, List.cons_append, List.getD_cons_succ, List.getD_append _ _ _ _ (by simp), List.getD_eq_getElem _ _ (by simp)]
  simp

/-- the terms of the force models, by position and by exponents -/
theorem forcing_eq (hD1 : 1 ≤ D) (hD : D ≤ 3) (m : Method S) {t : Transform S.Q} (h : construct D S.Q m.cumulants = .ok t) (inc : Bool)
    (f : Fin S.Q → ℝ) (i : Fin S.Q) :
    (m.forcing inc (sortExponents t.required) f).1.getD i 0 =
        (m.forceTerms inc f (toIndex D ((sortExponents t.required).getD i []))).1 ∧
      (m.forcing inc (sortExponents t.required) f).2.getD i 0 =
        (m.forceTerms inc f (toIndex D ((sortExponents t.required).getD i []))).2 := by
  obtain ⟨-, hr, hmem, -, -⟩ := C51_constructor h
  have hlen := exponents_length hD h
  have hl : (sortExponents t.required).length = S.Q := by rw [(sortExponents_perm _).length_eq, (construct_ok h).2.2.2.2.1]
  have hi : (i : ℕ) < (sortExponents t.required).length := by rw [hl]; exact i.isLt
  have hn : (sortExponents t.required).Nodup := (sortExponents_perm _).nodup_iff.2 hr
  have hrep : (List.replicate S.Q (0 : ℝ)).getD i 0 = 0 := by
    rw [List.getD_eq_getElem _ _ (by simp), List.getElem_replicate]
  have hmap : ∀ g : List ℕ → ℝ, ((sortExponents t.required).map g).getD i 0 = g ((sortExponents t.required).getD i []) := by
    intro g
    rw [List.getD_eq_getElem _ _ (by simpa using hi), List.getD_eq_getElem _ _ hi, List.getElem_map]
  have hcm : ∀ pop : Fin S.Q → ℝ, ∀ e, Forcing.centralMoments S (m.vel f) pop e = Spec.momentAbout S pop (m.vel f) (toIndex D e) := by
    intro pop e
    simp only [Forcing.centralMoments, Spec.momentAbout, evMono_toIndex, velocities]
    exact Finset.sum_congr rfl fun q _ => mul_comm _ _
  have hin : (sortExponents t.required).getD i [] ∈ t.exponents := by
    rw [← hmem, ← (sortExponents_perm _).mem_iff, List.getD_eq_getElem _ _ hi]
    exact List.getElem_mem _
  have hfirst : ∀ F : Fin D → ℝ, (Forcing.firstEntries S.Q F).getD i 0 =
      ∑ a, if toIndex D ((sortExponents t.required).getD i []) = Pi.single a 1 then 1 / 2 * F a else 0 := by
    intro F
    rw [firstEntries_getD _ _ _ i.isLt]
    refine Finset.sum_congr rfl fun a _ => ?_
    obtain ⟨l, hc⟩ := C54_order hD1 hD h
    have ha : a.val + 1 < (sortExponents t.required).length := by rw [hc]; simp [lowExponents]; omega
    have hlow : (sortExponents t.required).getD (a.val + 1) [] = (List.replicate D 0).set a 1 := by rw [hc]; exact low_getD a l
    have : (i : ℕ) = a.val + 1 ↔ toIndex D ((sortExponents t.required).getD i []) = Pi.single a 1 := by
      constructor
      · intro h'; rw [h', hlow, toIndex_unit]
      · intro h'
        have e1 : (sortExponents t.required).getD i [] = (sortExponents t.required).getD (a.val + 1) [] := by
          rw [← ofFn_toIndex _ (hlen _ hin), h', hlow, ← toIndex_unit, ofFn_toIndex _ (by simp)]
        rw [List.getD_eq_getElem _ _ hi, List.getD_eq_getElem _ _ ha] at e1
        exact (hn.getElem_inj_iff).1 e1
    simp only [this]
  unfold Method.forcing Method.forceTerms
  cases inc with
  | false => exact ⟨hrep, hrep⟩
  | true =>
    rcases m.force with _ | F
    · exact ⟨hrep, hrep⟩
    · cases F with
      | full pop => exact ⟨hrep, by simp only [Forcing.terms]; rw [hmap, hcm]⟩
      | halves pop => simp only [Forcing.terms]; rw [hmap, hcm]; exact ⟨rfl, rfl⟩
      | first F => exact ⟨hfirst F, hfirst F⟩
      | continuous cm =>
        simp only [Forcing.terms]
        rw [hmap, ofFn_toIndex _ (hlen _ hin)]
        exact ⟨rfl, rfl⟩
      | none => simp [Forcing.terms]

namespace Method

theorem collisionRule_ok {m : Method S} {d : Fin S.Q → ℝ} {inc : Bool} {r : (Fin S.Q → ℝ) → Fin S.Q → ℝ}
    (hr : m.collisionRule d inc = .ok r) : ∃ b t, m.backgroundShift = .ok b ∧ construct D S.Q m.cumulants = .ok t ∧
      (pdfsToCentral S (sortExponents t.required) 0).det ≠ 0 ∧ r = m.collide t (sortExponents t.required) b d inc := by
  unfold collisionRule at hr
  rcases hb : m.backgroundShift with e | b
  · rw [hb] at hr; cases hr
  rcases ht : construct D S.Q m.cumulants with e | t
  · rw [hb, ht] at hr; cases hr
  rw [hb, ht] at hr
  simp only at hr
  split at hr
  · cases hr
  · rename_i h0
    cases hr
    exact ⟨b, t, rfl, rfl, h0, rfl⟩

/-- C54: a collision rule results exactly if the cumulants are accepted by the transform, the raw moments determine the populations,
and zero-centred storage comes with an absolute equilibrium and a background distribution. -/
theorem C54_defined_iff (m : Method S) (d : Fin S.Q → ℝ) (inc : Bool) :
    (∃ r, m.collisionRule d inc = .ok r) ↔
      (m.zeroCentered = true → m.deviationOnly = false ∧ m.background.isSome) ∧
      ∃ t, construct D S.Q m.cumulants = .ok t ∧ (pdfsToCentral S (sortExponents t.required) 0).det ≠ 0 := by
  constructor
  · rintro ⟨r, hr⟩
    obtain ⟨b, t, hb, ht, h0, -⟩ := collisionRule_ok hr
    refine ⟨fun hz => ?_, t, ht, h0⟩
    unfold backgroundShift at hb
    rw [hz] at hb
    rcases hd : m.deviationOnly with _ | _ <;> rcases hbg : m.background with _ | _ <;> simp [hd, hbg] at hb ⊢
  · rintro ⟨hz, t, ht, h0⟩
    have : ∃ b, m.backgroundShift = .ok b := by
      unfold backgroundShift
      rcases hzc : m.zeroCentered with _ | _
      · exact ⟨_, rfl⟩
      · obtain ⟨h1, h2⟩ := hz hzc
        obtain ⟨b, hb⟩ := Option.isSome_iff_exists.1 h2
        simp [h1, hb]
    obtain ⟨b, hb⟩ := this
    refine ⟨m.collide t (sortExponents t.required) b d inc, ?_⟩
    unfold collisionRule
    rw [hb, ht]
    simp only
    rw [if_neg h0]

/-- cumulants before the relaxation -/
noncomputable def pre (m : Method S) (t : Transform S.Q) (w : Fin S.Q → ℝ) (inc : Bool) (f : Fin S.Q → ℝ) : Fin S.Q → ℝ :=
  forwardTransform D t (m.rho f) (m.vel f) fun e =>
    Spec.momentAbout S (f + w) (m.vel f) (toIndex D e) + (m.forceTerms inc f (toIndex D e)).1

/-- the background shift holds the central moments of the background -/
theorem background_eq {m : Method S} {b : (Fin D → ℝ) → List ℕ → ℝ} (hb : m.backgroundShift = .ok b) {t : Transform S.Q}
    (ht : construct D S.Q m.cumulants = .ok t) {w : Fin S.Q → ℝ} (hw : m.Storage w) (u : Fin D → ℝ) :
    ∀ e ∈ t.required, b u e = Spec.momentAbout S w u (toIndex D e) := by
  intro e he
  unfold backgroundShift at hb
  unfold Storage at hw
  rcases hz : m.zeroCentered with _ | _
  · rw [hz] at hb hw
    simp only [Bool.false_eq_true, if_false] at hb hw
    cases hb
    rw [hw]
    simp [Spec.momentAbout]
  · rw [hz] at hb hw
    simp only [if_true] at hb hw
    obtain ⟨h1, b', h2, h3⟩ := hw
    rw [h1, h2] at hb
    simp only [Bool.false_eq_true, if_false] at hb
    cases hb
    refine h3 u e ?_
    rw [(construct_ok ht).2.1, (construct_ok ht).1] at he
    exact he

/-- the cumulants computed by the first half of the collision rule -/
theorem pre_computed (hD1 : 1 ≤ D) (hD : D ≤ 3) {m : Method S} {b : (Fin D → ℝ) → List ℕ → ℝ} (hb : m.backgroundShift = .ok b)
    {t : Transform S.Q} (ht : construct D S.Q m.cumulants = .ok t) {w : Fin S.Q → ℝ} (hw : m.Storage w) (inc : Bool) (f : Fin S.Q → ℝ) :
    forwardTransform D t (m.rho f) (m.vel f) (symbolValue (sortExponents t.required) fun i =>
      (pdfsToCentral S (sortExponents t.required) (m.vel f) *ᵥ f) i + b (m.vel f) ((sortExponents t.required).getD i []) +
      (m.forcing inc (sortExponents t.required) f).1.getD i 0) = m.pre t w inc f := by
  obtain ⟨-, hnr, -, -, -⟩ := C51_constructor ht
  have hl : (sortExponents t.required).length = S.Q := by rw [(sortExponents_perm _).length_eq, (construct_ok ht).2.2.2.2.1]
  have hn : (sortExponents t.required).Nodup := (sortExponents_perm _).nodup_iff.2 hnr
  have hpos : ∀ i : Fin S.Q, (sortExponents t.required).getD i [] ∈ t.required := by
    intro i
    rw [← (sortExponents_perm _).mem_iff, List.getD_eq_getElem _ _ (by rw [hl]; exact i.isLt)]
    exact List.getElem_mem _
  refine forward_congr hD ht _ _ fun e he => ?_
  obtain ⟨i, hi, -⟩ := exists_position hl ((sortExponents_perm _).mem_iff.2 he)
  rw [← hi, symbolValue_get hn hl, pdfsToCentral_mulVec, background_eq hb ht hw _ _ (hpos i), (forcing_eq hD1 hD m ht inc f i).1,
    momentAbout_add]

/-- one collision in central moments about the fluid velocity -/
theorem collide_central (hD1 : 1 ≤ D) (hD : D ≤ 3) {m : Method S} {d : Fin S.Q → ℝ} {inc : Bool}
    {r : (Fin S.Q → ℝ) → Fin S.Q → ℝ} (hr : m.collisionRule d inc = .ok r) {w : Fin S.Q → ℝ} (hw : m.Storage w)
    (f : Fin S.Q → ℝ) : ∃ t, construct D S.Q m.cumulants = .ok t ∧ (∀ u, (pdfsToCentral S (sortExponents t.required) u).det ≠ 0) ∧
      ∀ e ∈ t.required, Spec.momentAbout S (r f + w) (m.vel f) (toIndex D e) =
        backwardTransform D t (m.rho f) (m.vel f) (fun _ => 0)
          (fun i => m.pre t w inc f i + d i * (m.ceq f i - m.pre t w inc f i)) e + (m.forceTerms inc f (toIndex D e)).2 := by
  obtain ⟨b, t, hb, ht, h0, rfl⟩ := collisionRule_ok hr
  have hdet := C54_regular hD ht h0
  refine ⟨t, ht, hdet, fun e he => ?_⟩
  obtain ⟨-, hnr, hmem, -, -⟩ := C51_constructor ht
  have hl : (sortExponents t.required).length = S.Q := by rw [(sortExponents_perm _).length_eq, (construct_ok ht).2.2.2.2.1]
  have hn : (sortExponents t.required).Nodup := (sortExponents_perm _).nodup_iff.2 hnr
  have hbw := fun u => background_eq hb ht hw u
  have hpre := pre_computed hD1 hD hb ht hw inc f
  set cms := sortExponents t.required with hcms
  set u := m.vel f with hu
  have hpos : ∀ i : Fin S.Q, cms.getD i [] ∈ t.required := by
    intro i
    rw [← (sortExponents_perm _).mem_iff, ← hcms, List.getD_eq_getElem _ _ (by rw [hl]; exact i.isLt)]
    exact List.getElem_mem _
  obtain ⟨i, hi, -⟩ := exists_position hl ((sortExponents_perm _).mem_iff.2 he)
  rw [momentAbout_add, ← hi, ← pdfsToCentral_mulVec]
  unfold collide
  simp only
  rw [← hu, hpre, mulVec_mulVec, mul_nonsing_inv _ (isUnit_iff_ne_zero.2 (hdet u)), one_mulVec, hbw u _ (hpos i),
    (forcing_eq hD1 hD m ht inc f i).2, ← hcms]
  have : m.pre t w inc f + diagonal d *ᵥ (m.ceq f - m.pre t w inc f) =
      fun i => m.pre t w inc f i + d i * (m.ceq f i - m.pre t w inc f i) := by
    funext j
    simp [mulVec_diagonal]
  rw [this]
  ring

theorem momentAbout_zero (g : Fin S.Q → ℝ) (u : Fin D → ℝ) : Spec.momentAbout S g u 0 = ∑ q, g q := by simp [Spec.momentAbout]

theorem momentAbout_single (g : Fin S.Q → ℝ) (u : Fin D → ℝ) (a : Fin D) :
    Spec.momentAbout S g u (Pi.single a 1) = ∑ q, (S.c q a : ℝ) * g q - u a * ∑ q, g q := by
  simp only [Spec.momentAbout]
  rw [Finset.mul_sum, ← Finset.sum_sub_distrib]
  refine Finset.sum_congr rfl fun q _ => ?_
  rw [Finset.prod_eq_single a]
  · simp; ring
  · intro b _ hb; simp [hb]
  · simp

/-- populations are determined by the required central moments -/
theorem populations_ext {polys : List PExpr} {t : Transform S.Q} (ht : construct D S.Q polys = .ok t) {u : Fin D → ℝ}
    (hdet : (pdfsToCentral S (sortExponents t.required) u).det ≠ 0) {g h : Fin S.Q → ℝ}
    (hgh : ∀ e ∈ t.required, Spec.momentAbout S g u (toIndex D e) = Spec.momentAbout S h u (toIndex D e)) : g = h := by
  have hl : (sortExponents t.required).length = S.Q := by rw [(sortExponents_perm _).length_eq, (construct_ok ht).2.2.2.2.1]
  have : pdfsToCentral S (sortExponents t.required) u *ᵥ g = pdfsToCentral S (sortExponents t.required) u *ᵥ h := by
    funext i
    rw [pdfsToCentral_mulVec, pdfsToCentral_mulVec]
    refine hgh _ ?_
    rw [← (sortExponents_perm _).mem_iff, List.getD_eq_getElem _ _ (by rw [hl]; exact i.isLt)]
    exact List.getElem_mem _
  have h2 := congrArg ((pdfsToCentral S (sortExponents t.required) u)⁻¹ *ᵥ ·) this
  simpa [mulVec_mulVec, nonsing_inv_mul _ (isUnit_iff_ne_zero.2 hdet)] using h2

theorem backward_zero {Q : ℕ} (t : Transform Q) (rho : ℝ) (u : Fin D → ℝ) (free : List ℕ → ℝ) (c : Fin Q → ℝ) :
    backwardTransform D t rho u free c (List.replicate D 0) = Real.exp (monomialCumulant t free c (List.replicate D 0) / rho) := by
  rw [backwardTransform, toIndex_zero, C51_backward, rawMomentOfCumulants, partitionTransform, if_pos partitionList_zero]
  have : (∑ j, if (0 : Fin D → ℕ) = Pi.single j 1 then u j else 0) = 0 :=
    Finset.sum_eq_zero fun j _ => if_neg fun h => single_ne j h.symm
  rw [this, sub_zero, expDeriv, show List.ofFn (0 : Fin D → ℕ) = List.replicate D 0 by rw [← List.ofFn_const]; rfl]

theorem forceTerms_off (m : Method S) {inc : Bool} (h : inc = false ∨ m.force = none) (f : Fin S.Q → ℝ) (e : Fin D → ℕ) :
    m.forceTerms inc f e = (0, 0) := by
  unfold forceTerms
  rcases h with rfl | h
  · rfl
  · rw [h]; cases inc <;> rfl

theorem zero_required (hD1 : 1 ≤ D) (hD : D ≤ 3) {polys : List PExpr} {t : Transform S.Q} (ht : construct D S.Q polys = .ok t) :
    List.replicate D 0 ∈ t.required ∧ ∀ a : Fin D, (List.replicate D 0).set a 1 ∈ t.required := by
  obtain ⟨l, hl⟩ := C54_order hD1 hD ht
  constructor
  · rw [← (sortExponents_perm _).mem_iff, hl]
    simp [lowExponents]
  · intro a
    rw [← (sortExponents_perm _).mem_iff, hl]
    simp only [lowExponents, List.cons_append, List.mem_cons, List.mem_append, List.mem_map, List.mem_range]
    exact Or.inr (Or.inl ⟨a, a.isLt, rfl⟩)

/-- C54: one collision without force, in cumulants of the populations (derivatives of the logarithm of their generating function,
which do not depend on a frame of reference): every polynomial is relaxed towards its equilibrium value with its own rate, for
regular and for zero-centred storage. -/
theorem C54_cumulants (hD1 : 1 ≤ D) (hD : D ≤ 3) (m : Method S) (d : Fin S.Q → ℝ) (inc : Bool)
    {r : (Fin S.Q → ℝ) → Fin S.Q → ℝ} (hr : m.collisionRule d inc = .ok r) {w : Fin S.Q → ℝ} (hw : m.Storage w)
    (hF : inc = false ∨ m.force = none) (hp : ∀ p ∈ m.cumulants, Spec.InDimension D p) (f : Fin S.Q → ℝ) (hρ : m.rho f ≠ 0)
    (hf : ∑ q, (f q + w q) ≠ 0) :
    0 < ∑ q, (r f q + w q) ∧ ∀ i : Fin S.Q, Spec.cumulantOf S (m.rho f) (r f + w) (m.cumulants.getD i 0) =
      Spec.cumulantOf S (m.rho f) (f + w) (m.cumulants.getD i 0) +
        d i * (m.ceq f i - Spec.cumulantOf S (m.rho f) (f + w) (m.cumulants.getD i 0)) := by
  obtain ⟨t, ht, -, hc⟩ := collide_central hD1 hD hr hw f
  have hpre : m.pre t w inc f = fun i : Fin S.Q => Spec.cumulantOf S (m.rho f) (f + w) (m.cumulants.getD i 0) := by
    funext i
    rw [← forward_populations hD ht hp (m.rho f) (m.vel f) (f + w) (by simpa using hf) i]
    unfold pre
    simp [forceTerms_off m hF]
  simp only [forceTerms_off m hF, add_zero, hpre] at hc
  have hpos : 0 < ∑ q, (r f q + w q) := by
    have := hc _ (zero_required hD1 hD ht).1
    rw [toIndex_zero, momentAbout_zero, backward_zero] at this
    simp only [Pi.add_apply] at this
    rw [this]
    exact Real.exp_pos _
  refine ⟨hpos, fun i => ?_⟩
  rw [← forward_populations hD ht hp (m.rho f) (m.vel f) (r f + w) (by simpa using hpos.ne') i]
  rw [C51_transform_forward_backward hD ht (m.rho f) hρ (m.vel f) _ _ (fun _ => 0) hc]

/-- C54: `get_equilibrium` are populations with the equilibrium cumulants. -/
theorem C54_equilibrium (hD1 : 1 ≤ D) (hD : D ≤ 3) (m : Method S) {r : (Fin S.Q → ℝ) → Fin S.Q → ℝ} (hr : m.getEquilibrium = .ok r)
    {w : Fin S.Q → ℝ} (hw : m.Storage w) (hp : ∀ p ∈ m.cumulants, Spec.InDimension D p) (f : Fin S.Q → ℝ) (hρ : m.rho f ≠ 0)
    (hf : ∑ q, (f q + w q) ≠ 0) (i : Fin S.Q) :
    Spec.cumulantOf S (m.rho f) (r f + w) (m.cumulants.getD i 0) = m.ceq f i := by
  rw [(C54_cumulants hD1 hD m _ false hr hw (Or.inl rfl) hp f hρ hf).2 i]
  ring

/-- C54: with rates 0 the collision only adds the force terms, and without force nothing changes. -/
theorem C54_zero_rates (hD1 : 1 ≤ D) (hD : D ≤ 3) (m : Method S) (inc : Bool) {r : (Fin S.Q → ℝ) → Fin S.Q → ℝ}
    (hr : m.collisionRule (fun _ => 0) inc = .ok r) {w : Fin S.Q → ℝ} (hw : m.Storage w) (f : Fin S.Q → ℝ) (hρ : m.rho f ≠ 0)
    (hf : 0 < ∑ q, (f q + w q) + (m.forceTerms inc f 0).1) :
    (∀ e ∈ requiredCentralMoments D (Chimera.extractMonomials D m.cumulants),
      Spec.momentAbout S (r f) (m.vel f) (toIndex D e) = Spec.momentAbout S f (m.vel f) (toIndex D e) +
        (m.forceTerms inc f (toIndex D e)).1 + (m.forceTerms inc f (toIndex D e)).2) ∧
      (inc = false ∨ m.force = none → r f = f) := by
  obtain ⟨t, ht, hdet, hc⟩ := collide_central hD1 hD hr hw f
  have key : ∀ e ∈ t.required, Spec.momentAbout S (r f) (m.vel f) (toIndex D e) = Spec.momentAbout S f (m.vel f) (toIndex D e) +
        (m.forceTerms inc f (toIndex D e)).1 + (m.forceTerms inc f (toIndex D e)).2 := by
    intro e he
    have h1 := hc e he
    have h2 : (fun i => m.pre t w inc f i + (fun _ => (0 : ℝ)) i * (m.ceq f i - m.pre t w inc f i)) = m.pre t w inc f := by
      funext i; simp
    rw [h2] at h1
    unfold pre at h1
    rw [C51_transform_backward_forward hD ht (m.rho f) hρ (m.vel f) _ (fun _ => 0) _ e he] at h1
    · rw [momentAbout_add, momentAbout_add] at h1
      linarith
    · rw [toIndex_zero, momentAbout_zero]
      exact hf
  refine ⟨?_, fun hF => ?_⟩
  · rw [(construct_ok ht).2.1, (construct_ok ht).1] at key
    exact key
  · refine populations_ext ht (hdet (m.vel f)) fun e he => ?_
    rw [key e he, forceTerms_off m hF]
    simp

/-! ### Mass and momentum -/

/-- the cumulants contain `1` and the variables, at these positions -/
structure HasConserved (m : Method S) (i0 : Fin S.Q) (i1 : Fin D → Fin S.Q) : Prop where
  mass : (m.cumulants.getD i0 0).expand = [(1, [0, 0, 0])]
  momentum : ∀ a : Fin D, (m.cumulants.getD (i1 a) 0).expand = [(1, (List.replicate 3 0).set a 1)]

theorem take_zero (hD : D ≤ 3) : ([0, 0, 0] : List ℕ).take D = List.replicate D 0 := by interval_cases D <;> rfl

theorem take_unit (hD : D ≤ 3) (a : Fin D) : ((List.replicate 3 0).set a 1).take D = (List.replicate D 0).set a 1 := by
  interval_cases D
  · exact a.elim0
  all_goals fin_cases a <;> rfl

/-- values of the monomial cumulants of order zero and one after the relaxation -/
theorem mono_low (hD : D ≤ 3) {m : Method S} {t : Transform S.Q} (ht : construct D S.Q m.cumulants = .ok t)
    (hp : ∀ p ∈ m.cumulants, Spec.InDimension D p) {i0 : Fin S.Q} {i1 : Fin D → Fin S.Q} (hc : m.HasConserved i0 i1) :
    (∀ X : List ℕ → ℝ, (t.monoToPoly *ᵥ fun j : Fin S.Q => X (t.exponents.getD j [])) i0 = X (List.replicate D 0) ∧
      ∀ a, (t.monoToPoly *ᵥ fun j : Fin S.Q => X (t.exponents.getD j [])) (i1 a) = X ((List.replicate D 0).set a 1)) ∧
    ∀ c : Fin S.Q → ℝ, monomialCumulant t (fun _ => 0) c (List.replicate D 0) = c i0 ∧
      ∀ a : Fin D, monomialCumulant t (fun _ => 0) c ((List.replicate D 0).set a 1) = c (i1 a) := by
  have h1 : ∀ X : List ℕ → ℝ, (t.monoToPoly *ᵥ fun j : Fin S.Q => X (t.exponents.getD j [])) i0 = X (List.replicate D 0) ∧
      ∀ a, (t.monoToPoly *ᵥ fun j : Fin S.Q => X (t.exponents.getD j [])) (i1 a) = X ((List.replicate D 0).set a 1) := by
    intro X
    constructor
    · rw [monoToPoly_mulVec hD ht hp, hc.mass]
      simp [take_zero hD]
    · intro a
      rw [monoToPoly_mulVec hD ht hp, hc.momentum]
      simp only [List.map_cons, List.map_nil, List.sum_cons, List.sum_nil, take_unit hD a]
      simp
  refine ⟨h1, fun c => ?_⟩
  obtain ⟨-, -, hl, -, -, -, hPP, -⟩ := construct_ok ht
  have hn := (C51_constructor ht).1
  have h2 := h1 (monomialCumulant t (fun _ => 0) c)
  have h3 : (fun j : Fin S.Q => monomialCumulant t (fun _ => 0) c (t.exponents.getD j [])) = t.polyToMono *ᵥ c :=
    funext fun j => monomialCumulant_get hn hl _ c j
  rw [h3, mulVec_mulVec, hPP, one_mulVec] at h2
  exact ⟨h2.1.symm, fun a => (h2.2 a).symm⟩

/-- first-order central moment from the cumulants -/
theorem backward_unit {Q : ℕ} (t : Transform Q) (rho : ℝ) (u : Fin D → ℝ) (free : List ℕ → ℝ) (c : Fin Q → ℝ) (a : Fin D) :
    backwardTransform D t rho u free c ((List.replicate D 0).set a 1) =
      Real.exp (monomialCumulant t free c (List.replicate D 0) / rho) *
        (monomialCumulant t free c ((List.replicate D 0).set a 1) / rho - u a) := by
  have hb : (Pi.single a 1 : Fin D → ℕ) = blockIndex [a] := (blockIndex_single a).symm
  have hl : partitionList (Pi.single a 1 : Fin D → ℕ) = [a] := by
    rw [hb]; exact partitionList_blockIndex [a] (List.pairwise_singleton _ _)
  rw [backwardTransform, toIndex_unit, C51_backward, rawMomentOfCumulants, partitionTransform, hl, if_neg (by simp)]
  have hz : (∑ j, if (0 : Fin D → ℕ) = Pi.single j 1 then u j else 0) = 0 :=
    Finset.sum_eq_zero fun j _ => if_neg fun h => single_ne j h.symm
  have hs : (∑ j, if (Pi.single a 1 : Fin D → ℕ) = Pi.single j 1 then u j else 0) = u a := by
    rw [Finset.sum_eq_single a]
    · simp
    · intro j _ hj; exact if_neg fun h => hj (single_inj h).symm
    · simp
  have e0 : List.ofFn (0 : Fin D → ℕ) = List.replicate D 0 := by rw [← List.ofFn_const]; rfl
  have e1 : List.ofFn (Pi.single a 1 : Fin D → ℕ) = (List.replicate D 0).set a 1 := by
    rw [← toIndex_unit a, ofFn_toIndex _ (by simp)]
  simp [partitions, centralize, expDeriv, hz, ← hb, hs, e0, e1]

/-- pre-collision cumulants of order zero and one -/
theorem pre_low (hD : D ≤ 3) {m : Method S} {t : Transform S.Q} (ht : construct D S.Q m.cumulants = .ok t)
    (hp : ∀ p ∈ m.cumulants, Spec.InDimension D p) {i0 : Fin S.Q} {i1 : Fin D → Fin S.Q} (hc : m.HasConserved i0 i1)
    {inc : Bool} {w f : Fin S.Q → ℝ} (hpos : 0 < m.rho f) (hρ : m.rho f = ∑ q, (f q + w q)) (hF0 : (m.forceTerms inc f 0).1 = 0)
    (hu : ∀ a, m.rho f * m.vel f a = ∑ q, (S.c q a : ℝ) * (f q + w q) + (m.forceTerms inc f (Pi.single a 1)).1) :
    m.pre t w inc f i0 = m.rho f * Real.log (m.rho f) ∧ ∀ a, m.pre t w inc f (i1 a) = m.rho f * m.vel f a := by
  obtain ⟨hX, -⟩ := mono_low hD ht hp hc
  set κ : (Fin D → ℕ) → ℝ := fun e => Spec.momentAbout S (f + w) (m.vel f) e + (m.forceTerms inc f e).1 with hκ
  have hk0 : κ 0 = m.rho f := by
    rw [hκ]
    simp only
    rw [momentAbout_zero, hF0, add_zero, hρ]
    rfl
  have hk1 : ∀ a, κ (Pi.single a 1) = 0 := by
    intro a
    rw [hκ]
    simp only
    rw [momentAbout_single]
    have := hu a
    have e : ∑ q, (f + w) q = m.rho f := by rw [hρ]; rfl
    rw [e]
    simp only [Pi.add_apply]
    linarith
  have hfw : (fun e => Spec.momentAbout S (f + w) (m.vel f) (toIndex D e) + (m.forceTerms inc f (toIndex D e)).1) =
      fun e => κ (toIndex D e) := rfl
  have hpre0 : m.pre t w inc f i0 = m.rho f * Real.log (m.rho f) := by
    unfold pre forwardTransform
    rw [hfw, (hX fun e => cumulantFromCentralMoments (m.rho f) (m.vel f) (fun i => κ (toIndex D (List.ofFn i))) (toIndex D e)).1]
    simp only [toIndex_ofFn, toIndex_zero]
    have := (C51_low_orders (m.vel f) κ (by rw [hk0]; exact hpos.ne') fun a => by rw [blockIndex_single]; exact hk1 a).1
    rw [hk0] at this
    exact this
  have hpre1 : ∀ a, m.pre t w inc f (i1 a) = m.rho f * m.vel f a := by
    intro a
    unfold pre forwardTransform
    rw [hfw, (hX fun e => cumulantFromCentralMoments (m.rho f) (m.vel f) (fun i => κ (toIndex D (List.ofFn i))) (toIndex D e)).2 a]
    simp only [toIndex_ofFn, toIndex_unit]
    have := (C51_low_orders (m.vel f) κ (by rw [hk0]; exact hpos.ne') fun a => by rw [blockIndex_single]; exact hk1 a).2.1 a
    rw [hk0, blockIndex_single] at this
    exact this
  exact ⟨hpre0, hpre1⟩

/-- C54: mass and momentum after one collision. The fluid velocity is that of the momentum including the part of the force that is
added before the relaxation; then neither the rates nor the other cumulants matter. -/
theorem C54_mass_momentum (hD1 : 1 ≤ D) (hD : D ≤ 3) (m : Method S) (d : Fin S.Q → ℝ) (inc : Bool)
    {r : (Fin S.Q → ℝ) → Fin S.Q → ℝ} (hr : m.collisionRule d inc = .ok r) {w : Fin S.Q → ℝ} (hw : m.Storage w)
    (hp : ∀ p ∈ m.cumulants, Spec.InDimension D p) {i0 : Fin S.Q} {i1 : Fin D → Fin S.Q} (hc : m.HasConserved i0 i1)
    (f : Fin S.Q → ℝ) (hpos : 0 < m.rho f) (hρ : m.rho f = ∑ q, (f q + w q)) (h0 : m.ceq f i0 = m.rho f * Real.log (m.rho f))
    (h1 : ∀ a, m.ceq f (i1 a) = m.rho f * m.vel f a) (hF0 : (m.forceTerms inc f 0).1 = 0)
    (hu : ∀ a, m.rho f * m.vel f a = ∑ q, (S.c q a : ℝ) * (f q + w q) + (m.forceTerms inc f (Pi.single a 1)).1) :
    ∑ q, r f q = ∑ q, f q + (m.forceTerms inc f 0).2 ∧
    ∀ a, ∑ q, (S.c q a : ℝ) * r f q = ∑ q, (S.c q a : ℝ) * f q + (m.forceTerms inc f (Pi.single a 1)).1 +
      (m.forceTerms inc f (Pi.single a 1)).2 + m.vel f a * (m.forceTerms inc f 0).2 := by
  obtain ⟨t, ht, hdet, hcm⟩ := collide_central hD1 hD hr hw f
  obtain ⟨-, hM⟩ := mono_low hD ht hp hc
  obtain ⟨hz, he⟩ := zero_required hD1 hD ht
  obtain ⟨hpre0, hpre1⟩ := pre_low hD ht hp hc (inc := inc) hpos hρ hF0 hu
  set post : Fin S.Q → ℝ := fun i => m.pre t w inc f i + d i * (m.ceq f i - m.pre t w inc f i) with hpost
  have hp0 : monomialCumulant t (fun _ => 0) post (List.replicate D 0) = m.rho f * Real.log (m.rho f) := by
    rw [(hM post).1, hpost]
    simp only
    rw [hpre0, h0]; ring
  have hp1 : ∀ a : Fin D, monomialCumulant t (fun _ => 0) post ((List.replicate D 0).set a 1) = m.rho f * m.vel f a := by
    intro a
    rw [(hM post).2 a, hpost]
    simp only
    rw [hpre1, h1]; ring
  have hexp : Real.exp (m.rho f * Real.log (m.rho f) / m.rho f) = m.rho f := by
    rw [mul_div_cancel_left₀ _ hpos.ne', Real.exp_log hpos]
  have k0 := hcm _ hz
  rw [toIndex_zero, momentAbout_zero, backward_zero, hp0, hexp] at k0
  have hsum : ∀ g : Fin S.Q → ℝ, ∑ q, (g + w) q = ∑ q, g q + ∑ q, w q := fun g => by
    rw [← Finset.sum_add_distrib]; rfl
  have hsum1 : ∀ (g : Fin S.Q → ℝ) (a : Fin D), ∑ q, (S.c q a : ℝ) * (g + w) q = ∑ q, (S.c q a : ℝ) * g q + ∑ q, (S.c q a : ℝ) * w q :=
    fun g a => by rw [← Finset.sum_add_distrib]; exact Finset.sum_congr rfl fun q _ => by rw [Pi.add_apply]; ring
  have e0 : ∑ q, r f q = ∑ q, f q + (m.forceTerms inc f 0).2 := by
    have : m.rho f = ∑ q, f q + ∑ q, w q := by rw [hρ, Finset.sum_add_distrib]
    rw [hsum] at k0
    linarith
  refine ⟨e0, fun a => ?_⟩
  have k1 := hcm _ (he a)
  rw [toIndex_unit, momentAbout_single, backward_unit, hp0, hp1, hexp, mul_div_cancel_left₀ _ hpos.ne', sub_self, mul_zero, zero_add,
    hsum, hsum1, e0] at k1
  have hu' := hu a
  have : m.rho f = ∑ q, f q + ∑ q, w q := by rw [hρ, Finset.sum_add_distrib]
  have h4 : ∑ q, (S.c q a : ℝ) * (f q + w q) = ∑ q, (S.c q a : ℝ) * f q + ∑ q, (S.c q a : ℝ) * w q := hsum1 f a
  rw [h4, this] at hu'
  linear_combination k1 + hu'

/-- C54: a force `F` acts as intended for every force model the method accepts and all rates: mass is unchanged and the momentum grows
by `F`. `Simple` and `Luo` use the velocity of the populations, the others that with half of the force added. -/
theorem C54_force (hD1 : 1 ≤ D) (hD : D ≤ 3) (m : Method S) (d : Fin S.Q → ℝ) {r : (Fin S.Q → ℝ) → Fin S.Q → ℝ}
    (hr : m.collisionRule d true = .ok r) {w : Fin S.Q → ℝ} (hw : m.Storage w)
    (hp : ∀ p ∈ m.cumulants, Spec.InDimension D p) {i0 : Fin S.Q} {i1 : Fin D → Fin S.Q} (hc : m.HasConserved i0 i1)
    (f : Fin S.Q → ℝ) (hpos : 0 < m.rho f) (hρ : m.rho f = ∑ q, (f q + w q)) (h0 : m.ceq f i0 = m.rho f * Real.log (m.rho f))
    (h1 : ∀ a, m.ceq f (i1 a) = m.rho f * m.vel f a) (F : Fin D → ℝ)
    (hF : (∃ pop, m.force = some (.full pop) ∧ ∑ q, pop f q = 0 ∧ (∀ a, ∑ q, (S.c q a : ℝ) * pop f q = F a) ∧
        ∀ a, m.rho f * m.vel f a = ∑ q, (S.c q a : ℝ) * (f q + w q)) ∨
      ((∃ pop, m.force = some (.halves pop) ∧ ∑ q, pop f q = 0 ∧ ∀ a, ∑ q, (S.c q a : ℝ) * pop f q = F a) ∨
        m.force = some (.first F) ∨
        (∃ cm, m.force = some (.continuous cm) ∧ cm f (List.replicate D 0) = 0 ∧ ∀ a : Fin D, cm f ((List.replicate D 0).set a 1) = F a)) ∧
        ∀ a, m.rho f * m.vel f a = ∑ q, (S.c q a : ℝ) * (f q + w q) + F a / 2) :
    ∑ q, r f q = ∑ q, f q ∧ ∀ a, ∑ q, (S.c q a : ℝ) * r f q = ∑ q, (S.c q a : ℝ) * f q + F a := by
  have e0 : List.ofFn (0 : Fin D → ℕ) = List.replicate D 0 := by rw [← List.ofFn_const]; rfl
  have e1 : ∀ a, List.ofFn (Pi.single a 1 : Fin D → ℕ) = (List.replicate D 0).set a 1 := fun a => by
    rw [← toIndex_unit a, ofFn_toIndex _ (by simp)]
  have key : ∃ s : ℝ, m.forceTerms true f 0 = (0, 0) ∧ (∀ a, m.forceTerms true f (Pi.single a 1) = (s * F a, (1 - s) * F a)) ∧
      ∀ a, m.rho f * m.vel f a = ∑ q, (S.c q a : ℝ) * (f q + w q) + s * F a := by
    unfold forceTerms
    rcases hF with ⟨pop, h, hp0, hp1, hu⟩ | ⟨⟨pop, h, hp0, hp1⟩ | h | ⟨cm, h, hc0, hc1⟩, hu⟩
    · refine ⟨0, ?_, fun a => ?_, fun a => ?_⟩
      · rw [h]; simp [momentAbout_zero, hp0]
      · rw [h]; simp [momentAbout_single, hp0, hp1]
      · rw [hu]; simp
    · refine ⟨1 / 2, ?_, fun a => ?_, fun a => ?_⟩
      · rw [h]; simp [momentAbout_zero, hp0]
      · rw [h]; simp only [momentAbout_single, hp0, hp1]; ext <;> ring
      · rw [hu]; ring
    · refine ⟨1 / 2, ?_, fun a => ?_, fun a => ?_⟩
      · rw [h]
        have : (∑ a, if (0 : Fin D → ℕ) = Pi.single a 1 then 1 / 2 * F a else 0) = 0 :=
          Finset.sum_eq_zero fun j _ => if_neg fun h => single_ne j h.symm
        simp only [this]
      · rw [h]
        have : (∑ b, if (Pi.single a 1 : Fin D → ℕ) = Pi.single b 1 then 1 / 2 * F b else 0) = 1 / 2 * F a := by
          rw [Finset.sum_eq_single a]
          · simp
          · intro j _ hj; exact if_neg fun h => hj (single_inj h).symm
          · simp
        simp only [this]
        ext <;> ring
      · rw [hu]; ring
    · refine ⟨1 / 2, ?_, fun a => ?_, fun a => ?_⟩
      · rw [h]; simp [e0, hc0]
      · rw [h]; simp only [e1, hc1]; ext <;> ring
      · rw [hu]; ring
  obtain ⟨s, k0, k1, k2⟩ := key
  obtain ⟨r0, r1⟩ := C54_mass_momentum hD1 hD m d true hr hw hp hc f hpos hρ h0 h1 (by rw [k0]) (fun a => by rw [k1]; exact k2 a)
  refine ⟨by rw [r0, k0, add_zero], fun a => ?_⟩
  rw [r1, k0, k1]
  ring

/-- C54: without force, mass and momentum are conserved for all rates. -/
theorem C54_conservation (hD1 : 1 ≤ D) (hD : D ≤ 3) (m : Method S) (d : Fin S.Q → ℝ) (inc : Bool)
    {r : (Fin S.Q → ℝ) → Fin S.Q → ℝ} (hr : m.collisionRule d inc = .ok r) {w : Fin S.Q → ℝ} (hw : m.Storage w)
    (hF : inc = false ∨ m.force = none)
    (hp : ∀ p ∈ m.cumulants, Spec.InDimension D p) {i0 : Fin S.Q} {i1 : Fin D → Fin S.Q} (hc : m.HasConserved i0 i1)
    (f : Fin S.Q → ℝ) (hpos : 0 < m.rho f) (hρ : m.rho f = ∑ q, (f q + w q)) (h0 : m.ceq f i0 = m.rho f * Real.log (m.rho f))
    (h1 : ∀ a, m.ceq f (i1 a) = m.rho f * m.vel f a) (hu : ∀ a, m.rho f * m.vel f a = ∑ q, (S.c q a : ℝ) * (f q + w q)) :
    ∑ q, r f q = ∑ q, f q ∧ ∀ a, ∑ q, (S.c q a : ℝ) * r f q = ∑ q, (S.c q a : ℝ) * f q := by
  have hz := forceTerms_off m hF f
  obtain ⟨r0, r1⟩ := C54_mass_momentum hD1 hD m d inc hr hw hp hc f hpos hρ h0 h1 (by rw [hz])
    (fun a => by rw [hz, add_zero]; exact hu a)
  refine ⟨by rw [r0, hz, add_zero], fun a => ?_⟩
  rw [r1, hz, hz]
  ring

/-- C54: zero-centred storage: colliding the deviations from `w` and adding it is colliding the populations. -/
theorem C54_zero_centred (hD1 : 1 ≤ D) (hD : D ≤ 3) (z a : Method S) (w : Fin S.Q → ℝ) (d : Fin S.Q → ℝ) (inc : Bool)
    {rz ra : (Fin S.Q → ℝ) → Fin S.Q → ℝ} (hrz : z.collisionRule d inc = .ok rz) (hra : a.collisionRule d inc = .ok ra)
    (hw : z.Storage w) (ha : a.zeroCentered = false) (hcum : z.cumulants = a.cumulants) (g : Fin S.Q → ℝ)
    (hρ : z.rho g = a.rho (g + w)) (hv : z.vel g = a.vel (g + w)) (hceq : z.ceq g = a.ceq (g + w))
    (hF : z.forceTerms inc g = a.forceTerms inc (g + w)) : rz g + w = ra (g + w) := by
  have ha0 : a.Storage 0 := by unfold Storage; rw [ha]; rfl
  obtain ⟨t, ht, hdet, hz⟩ := collide_central hD1 hD hrz hw g
  obtain ⟨t', ht', -, hz'⟩ := collide_central hD1 hD hra ha0 (g + w)
  rw [hcum, ht'] at ht
  cases ht
  refine populations_ext ht' (hdet (z.vel g)) fun e he => ?_
  have hpre : z.pre t w inc g = a.pre t 0 inc (g + w) := by unfold pre; rw [hρ, hv, hF, add_zero]
  rw [hz e he, hpre, hρ, hv, hF, hceq, ← hz' e he, add_zero]

/-- C54: force models without symmetric forcing are refused, when the method is created and when the force model is set. -/
theorem C54_force_models (m : Method S) (F : Forcing S) :
    ((∃ m', m.setForceModel F = .ok m') ↔ F ≠ .none) ∧ (F = .none → m.setForceModel F = .error .valueError) ∧
    ((∃ m', ({ m with force := some F } : Method S).checked = .ok m') ↔ F ≠ .none) := by
  unfold setForceModel checked
  cases F <;> simp [Forcing.symmetric]

end Method

end CumulantMethod
end Lbm
