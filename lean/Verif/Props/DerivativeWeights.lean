import Verif.Props.DerivativeMoments
import Mathlib.Algebra.BigOperators.Fin
import Mathlib.Algebra.Order.BigOperators.Group.Finset
import Mathlib.Data.Fintype.Pi
import Mathlib.Data.Rat.Cast.CharZero
import Mathlib.Tactic.FinCases
import Mathlib.Tactic.Linarith
import Mathlib.Tactic.NormNum
import Mathlib.Tactic.Ring

/-!
# Property C93: the weights of the finite differences are determined by what is asked of them
-/

namespace Lbm
namespace Derivatives

/-! ## Specification -/

namespace Spec

/-- The direction mirrored along an axis -/
def flip (a : ℕ) (l : List ℤ) : List ℤ := l.modify a fun z => -z

/-- `assume_symmetric(a)` -/
def Symmetric (st : List (List ℤ)) (w : List ℤ → ℚ) (a : ℕ) : Prop := ∀ l ∈ st, w (flip a l) = w l

/-- `assume_symmetric(a, anti_symmetric=True)` -/
def Antisymmetric (st : List (List ℤ)) (w : List ℤ → ℚ) (a : ℕ) : Prop := ∀ l ∈ st, w (flip a l) = -w l

/-- The value at zero of the difference applied to a monomial -/
def onMonomial {D : ℕ} (st : List (List ℤ)) (w : List ℤ → ℚ) (m : Fin D → ℕ) : ℚ := (st.map fun l => w l * ∏ a : Fin D, (l.getD a 0 : ℚ) ^ m a).sum

/-- The difference is the second derivative for all polynomials up to degree three. -/
def ConsistentSecond {D : ℕ} (st : List (List ℤ)) (w : List ℤ → ℚ) (i : Fin D) : Prop :=
  ∀ m : Fin D → ℕ, ∑ a, m a ≤ 3 → onMonomial st w m = if m = Pi.single i 2 then 2 else 0

/-- The error in degree four is a multiple of the Laplacian of the second derivative. -/
def IsotropicSecond {D : ℕ} (st : List (List ℤ)) (w : List ℤ → ℚ) (i : Fin D) : Prop :=
  ∃ lam : ℚ, ∀ m : Fin D → ℕ, ∑ a, m a = 4 → onMonomial st w m = lam * ∑ j, if m = Pi.single i 2 + Pi.single j 2 then (if i = j then 24 else 4) else 0

/-- The difference is the derivative for all polynomials up to degree two. -/
def ConsistentFirst {D : ℕ} (st : List (List ℤ)) (w : List ℤ → ℚ) (i : Fin D) : Prop :=
  ∀ m : Fin D → ℕ, ∑ a, m a ≤ 2 → onMonomial st w m = if m = Pi.single i 1 then 1 else 0

/-- The error in degree three is a multiple of the Laplacian of the derivative. -/
def IsotropicFirst {D : ℕ} (st : List (List ℤ)) (w : List ℤ → ℚ) (i : Fin D) : Prop :=
  ∃ lam : ℚ, ∀ m : Fin D → ℕ, ∑ a, m a = 3 → onMonomial st w m = lam * ∑ j, if m = Pi.single i 1 + Pi.single j 2 then (if i = j then 6 else 2) else 0

end Spec

/-! ## Classes of directions -/

/-- The directions without negative components -/
def classes : ℕ → List (List ℤ)
  | 0 => [[]]
  | D + 1 => (classes D).map (0 :: ·) ++ (classes D).map (1 :: ·)

def absolute (l : List ℤ) : List ℤ := l.map fun z => (z.natAbs : ℤ)

/-- Sum of a monomial over a class, with a sign for the given axis -/
def classSum {D : ℕ} (st : List (List ℤ)) (s : List ℤ → ℚ) (m : Fin D → ℕ) (c : List ℤ) : ℚ :=
  ((st.filter fun l => absolute l = c).map fun l => s l * ∏ a : Fin D, (l.getD a 0 : ℚ) ^ m a).sum

theorem sum_classes (st cs : List (List ℤ)) (hcs : cs.Nodup) (h : ∀ l ∈ st, absolute l ∈ cs) (f : List ℤ → ℚ) :
    (st.map f).sum = (cs.map fun c => ((st.filter fun l => absolute l = c).map f).sum).sum := by
  induction st with
  | nil => simp
  | cons l st ih =>
    rw [List.map_cons, List.sum_cons, ih fun l' hl' => h l' (List.mem_cons_of_mem _ hl')]
    have : ∀ c, ((List.filter (fun l => decide (absolute l = c)) (l :: st)).map f).sum = (if c = absolute l then f l else 0) + ((st.filter fun l => absolute l = c).map f).sum := by
      intro c
      rw [List.filter_cons]
      by_cases hc : absolute l = c
      · simp [hc]
      · simp [hc, Ne.symm hc]
    simp only [this, List.sum_map_add]
    congr 1
    have key : ∀ cs : List (List ℤ), cs.Nodup → absolute l ∈ cs → (cs.map fun c => if c = absolute l then f l else 0).sum = f l := by
      intro cs
      induction cs with
      | nil => simp
      | cons c cs ihc =>
        intro hn hm
        rw [List.nodup_cons] at hn
        rw [List.map_cons, List.sum_cons]
        by_cases hc : c = absolute l
        · rw [if_pos hc, List.sum_eq_zero, add_zero]
          intro z hz
          obtain ⟨c', hc', rfl⟩ := List.mem_map.1 hz
          exact if_neg fun h => hn.1 (by rwa [hc, ← h])
        · rw [if_neg hc, zero_add]
          exact ihc hn.2 ((List.mem_cons.1 hm).resolve_left (Ne.symm hc))
    exact (key cs hcs (h l List.mem_cons_self)).symm

theorem onMonomial_eq {D : ℕ} {st cs : List (List ℤ)} (hcs : cs.Nodup) (h : ∀ l ∈ st, absolute l ∈ cs) {w s : List ℤ → ℚ} (hw : ∀ l ∈ st, w l = s l * w (absolute l)) (m : Fin D → ℕ) :
    Spec.onMonomial st w m = (cs.map fun c => w c * classSum st s m c).sum := by
  unfold Spec.onMonomial classSum
  rw [sum_classes st cs hcs h]
  congr 1
  refine List.map_congr_left fun c _ => ?_
  rw [← List.sum_map_mul_left]
  congr 1
  refine List.map_congr_left fun l hl => ?_
  obtain ⟨hl, hc⟩ := List.mem_filter.1 hl
  rw [hw l hl, of_decide_eq_true hc]
  ring

/-- The directions present with the given number of directions, by the number of components that are not zero -/
def present (Q k : ℕ) : Bool := match Q with
  | 15 => k ≠ 2
  | 19 => k ≠ 3
  | _ => true

/-- Exponents used below -/
def exponents : List (Fin 3 → ℕ) := [![0, 0, 0], ![2, 0, 0], ![0, 2, 0], ![0, 0, 2], ![2, 2, 0], ![2, 0, 2], ![0, 2, 2], ![4, 0, 0], ![0, 4, 0], ![0, 0, 4]]

/-- The tables of sizes with weights -/
def Sized (e : String × String × List (List ℤ)) (D : ℕ) (Qs : List ℕ) : Prop := (e.2.2.headD []).length = D ∧ e.2.2.length ∈ Qs

instance (e D Qs) : Decidable (Sized e D Qs) := inferInstanceAs (Decidable (_ ∧ _))

theorem table_absolute : ∀ e ∈ Tables.predefined, Sized e 3 [15, 19, 27] →
    ∀ l ∈ e.2.2, absolute l ∈ (classes 3).filter fun c => present e.2.2.length (c.countP (· ≠ 0)) := by
  decide +kernel

theorem table_flip : ∀ e ∈ Tables.predefined, ∀ a < (e.2.2.headD []).length, ∀ l ∈ e.2.2, Spec.flip a l ∈ e.2.2 := by
  decide +kernel

theorem table_sums : ∀ e ∈ Tables.predefined, Sized e 3 [15, 19, 27] → ∀ c ∈ classes 3, ∀ m ∈ exponents,
    classSum e.2.2 (fun _ => 1) m c = if present e.2.2.length (c.countP (· ≠ 0)) then 2 ^ c.countP (· ≠ 0) * ∏ a : Fin 3, (if m a = 0 then 1 else (c.getD a 0 : ℚ)) else 0 := by
  decide +kernel

/-- A direction mirrored until no component is negative -/
def upright (D : ℕ) (l : List ℤ) : List ℤ := (List.range D).foldl (fun l a => if l.getD a 0 < 0 then Spec.flip a l else l) l

theorem table_upright : ∀ e ∈ Tables.predefined, ∀ l ∈ e.2.2, upright (e.2.2.headD []).length l = absolute l := by
  decide +kernel

theorem upright_invariant {st : List (List ℤ)} {w : List ℤ → ℚ} (as : List ℕ) (hf : ∀ a ∈ as, ∀ l ∈ st, Spec.flip a l ∈ st) (hs : ∀ a ∈ as, Spec.Symmetric st w a) :
    ∀ l ∈ st, as.foldl (fun l a => if l.getD a 0 < 0 then Spec.flip a l else l) l ∈ st ∧ w (as.foldl (fun l a => if l.getD a 0 < 0 then Spec.flip a l else l) l) = w l := by
  induction as with
  | nil => exact fun l hl => ⟨hl, rfl⟩
  | cons a as ih =>
    intro l hl
    rw [List.foldl_cons]
    have ih := ih (fun b hb => hf b (List.mem_cons_of_mem _ hb)) fun b hb => hs b (List.mem_cons_of_mem _ hb)
    split_ifs
    · obtain ⟨h1, h2⟩ := ih _ (hf a List.mem_cons_self l hl)
      exact ⟨h1, h2.trans (hs a List.mem_cons_self l hl)⟩
    · exact ih l hl

theorem even_of {e : String × String × List (List ℤ)} (he : e ∈ Tables.predefined) {w : List ℤ → ℚ} (hs : ∀ a < (e.2.2.headD []).length, Spec.Symmetric e.2.2 w a) :
    ∀ l ∈ e.2.2, w l = w (absolute l) := by
  intro l hl
  rw [← table_upright e he l hl]
  exact (upright_invariant (List.range (e.2.2.headD []).length) (fun a ha => table_flip e he a (List.mem_range.1 ha)) (fun a ha => hs a (List.mem_range.1 ha)) l hl).2.symm

theorem others_absolute (i : ℕ) (l : List ℤ) : others i (absolute l) = others i l := by
  unfold others absolute
  rw [List.eraseIdx_map, List.countP_map]
  congr 1
  funext z
  simp

theorem secondWeight_absolute (t : ℕ → ℕ → ℚ) (i : ℕ) (l : List ℤ) : secondWeight t i (absolute l) = secondWeight t i l := by
  unfold secondWeight
  rw [others_absolute]
  congr 1
  unfold absolute
  simp only [List.getD_eq_getElem?_getD, List.getElem?_map]
  cases l[i]? <;> simp [Int.natAbs_abs]

set_option maxHeartbeats 1000000 in
/-- The weights of second derivatives in three dimensions -/
theorem second_unique : ∀ e ∈ Tables.predefined, Sized e 3 [15, 19, 27] → ∀ i : Fin 3, ∀ t ∈ secondTable 3 e.2.2.length, ∀ w : List ℤ → ℚ,
    (∀ a < 3, Spec.Symmetric e.2.2 w a) → Spec.ConsistentSecond e.2.2 w i → (e.2.2.length = 15 → w [0, 0, 0] = -32 / 27) → (e.2.2.length = 27 → w [0, 0, 0] = -38 / 27) →
    (e.2.2.length ≠ 15 → Spec.IsotropicSecond e.2.2 w i) → ∀ l ∈ e.2.2, w l = secondWeight t i l := by
  intro e he hQ i t ht w hs hc h15 h27 hi l hl
  have hD := hQ.1
  have hw : ∀ l ∈ e.2.2, w l = 1 * w (absolute l) := by
    intro l hl
    rw [one_mul]
    exact even_of he (hD ▸ hs) l hl
  have hm := onMonomial_eq (D := 3) (cs := classes 3) (by decide +kernel) (fun l hl => List.mem_of_mem_filter (table_absolute e he hQ l hl)) hw
  have hS := table_sums e he hQ
  rw [hw l hl, one_mul]
  have hl' := table_absolute e he hQ l hl
  rw [← secondWeight_absolute]
  generalize absolute l = c at hl' ⊢
  have key : ∀ m ∈ exponents, Spec.onMonomial e.2.2 w m = ((classes 3).map fun c => w c *
      if present e.2.2.length (c.countP (· ≠ 0)) then 2 ^ c.countP (· ≠ 0) * ∏ a : Fin 3, (if m a = 0 then 1 else (c.getD a 0 : ℚ)) else 0).sum := by
    intro m h
    rw [hm]
    congr 1
    refine List.map_congr_left fun c hc => ?_
    rw [hS c hc m h]
  have c0 := (key _ (by simp [exponents])).symm.trans (hc ![0, 0, 0] (by decide))
  have c1 := (key _ (by simp [exponents])).symm.trans (hc ![2, 0, 0] (by decide))
  have c2 := (key _ (by simp [exponents])).symm.trans (hc ![0, 2, 0] (by decide))
  have c3 := (key _ (by simp [exponents])).symm.trans (hc ![0, 0, 2] (by decide))
  have hQ' := hQ.2
  generalize e.2.2.length = Q at *
  simp only [List.mem_cons, List.not_mem_nil, or_false] at hQ'
  clear hm hS hw hs hc
  rcases hQ' with rfl | rfl | rfl
  · obtain rfl := Option.some.inj ht
    have h0 := h15 rfl
    clear key h15 h27 hi
    fin_cases i <;>
      simp [classes, present, Fin.prod_univ_three, funext_iff, Fin.forall_fin_succ, Pi.single_apply] at c0 c1 c2 c3 hl' <;>
      rcases hl' with rfl | rfl | rfl | rfl | rfl <;> simp [secondWeight, others] <;> linarith
  · obtain rfl := Option.some.inj ht
    obtain ⟨lam, hi⟩ := hi (by decide)
    have d1 := (key _ (by simp [exponents])).symm.trans (hi ![4, 0, 0] (by decide))
    have d2 := (key _ (by simp [exponents])).symm.trans (hi ![0, 4, 0] (by decide))
    have d3 := (key _ (by simp [exponents])).symm.trans (hi ![0, 0, 4] (by decide))
    have d4 := (key _ (by simp [exponents])).symm.trans (hi ![2, 2, 0] (by decide))
    have d5 := (key _ (by simp [exponents])).symm.trans (hi ![2, 0, 2] (by decide))
    have d6 := (key _ (by simp [exponents])).symm.trans (hi ![0, 2, 2] (by decide))
    clear key h15 h27 hi
    fin_cases i <;>
      simp [classes, present, Fin.prod_univ_three, Fin.sum_univ_three, funext_iff, Fin.forall_fin_succ, Pi.single_apply] at c0 c1 c2 c3 d1 d2 d3 d4 d5 d6 hl' <;>
      rcases hl' with rfl | rfl | rfl | rfl | rfl | rfl | rfl <;> simp [secondWeight, others] <;> linarith
  · obtain rfl := Option.some.inj ht
    obtain ⟨lam, hi⟩ := hi (by decide)
    have d1 := (key _ (by simp [exponents])).symm.trans (hi ![4, 0, 0] (by decide))
    have d2 := (key _ (by simp [exponents])).symm.trans (hi ![0, 4, 0] (by decide))
    have d3 := (key _ (by simp [exponents])).symm.trans (hi ![0, 0, 4] (by decide))
    have d4 := (key _ (by simp [exponents])).symm.trans (hi ![2, 2, 0] (by decide))
    have d5 := (key _ (by simp [exponents])).symm.trans (hi ![2, 0, 2] (by decide))
    have d6 := (key _ (by simp [exponents])).symm.trans (hi ![0, 2, 2] (by decide))
    have h0 := h27 rfl
    clear key h15 h27 hi
    fin_cases i <;>
      simp [classes, present, Fin.prod_univ_three, Fin.sum_univ_three, funext_iff, Fin.forall_fin_succ, Pi.single_apply] at c0 c1 c2 c3 d1 d2 d3 d4 d5 d6 hl' <;>
      rcases hl' with rfl | rfl | rfl | rfl | rfl | rfl | rfl | rfl <;> simp [secondWeight, others] <;> linarith

/-- Exponents used below, in two dimensions -/
def exponents₂ : List (Fin 2 → ℕ) := [![0, 0], ![2, 0], ![0, 2], ![2, 2], ![4, 0], ![0, 4]]

theorem table_absolute₂ : ∀ e ∈ Tables.predefined, Sized e 2 [9] → ∀ l ∈ e.2.2, absolute l ∈ classes 2 := by
  decide +kernel

theorem table_sums₂ : ∀ e ∈ Tables.predefined, Sized e 2 [9] → ∀ c ∈ classes 2, ∀ m ∈ exponents₂,
    classSum e.2.2 (fun _ => 1) m c = 2 ^ c.countP (· ≠ 0) * ∏ a : Fin 2, (if m a = 0 then 1 else (c.getD a 0 : ℚ)) := by
  decide +kernel

/-- The weights of second derivatives in two dimensions -/
theorem second_unique₂ : ∀ e ∈ Tables.predefined, Sized e 2 [9] → ∀ i : Fin 2, ∀ t ∈ secondTable 2 e.2.2.length, ∀ w : List ℤ → ℚ,
    (∀ a < 2, Spec.Symmetric e.2.2 w a) → Spec.ConsistentSecond e.2.2 w i → Spec.IsotropicSecond e.2.2 w i → ∀ l ∈ e.2.2, w l = secondWeight t i l := by
  intro e he hQ i t ht w hs hc hi l hl
  have hD := hQ.1
  have hw : ∀ l ∈ e.2.2, w l = 1 * w (absolute l) := by
    intro l hl
    rw [one_mul]
    exact even_of he (hD ▸ hs) l hl
  have hm := onMonomial_eq (D := 2) (cs := classes 2) (by decide +kernel) (table_absolute₂ e he hQ) hw
  have hS := table_sums₂ e he hQ
  rw [hw l hl, one_mul]
  have hl' := table_absolute₂ e he hQ l hl
  rw [← secondWeight_absolute]
  generalize absolute l = c at hl' ⊢
  have key : ∀ m ∈ exponents₂, Spec.onMonomial e.2.2 w m = ((classes 2).map fun c => w c *
      (2 ^ c.countP (· ≠ 0) * ∏ a : Fin 2, (if m a = 0 then 1 else (c.getD a 0 : ℚ)))).sum := by
    intro m h
    rw [hm]
    congr 1
    refine List.map_congr_left fun c hc => ?_
    rw [hS c hc m h]
  have c0 := (key _ (by simp [exponents₂])).symm.trans (hc ![0, 0] (by decide))
  have c1 := (key _ (by simp [exponents₂])).symm.trans (hc ![2, 0] (by decide))
  have c2 := (key _ (by simp [exponents₂])).symm.trans (hc ![0, 2] (by decide))
  obtain ⟨lam, hi⟩ := hi
  have d1 := (key _ (by simp [exponents₂])).symm.trans (hi ![4, 0] (by decide))
  have d2 := (key _ (by simp [exponents₂])).symm.trans (hi ![0, 4] (by decide))
  have d3 := (key _ (by simp [exponents₂])).symm.trans (hi ![2, 2] (by decide))
  have hQ' := hQ.2
  rw [List.mem_singleton] at hQ'
  rw [hQ'] at ht
  obtain rfl := Option.some.inj ht
  clear hm hS hw hs hc hi key
  fin_cases i <;>
    simp [classes, Fin.prod_univ_two, Fin.sum_univ_two, funext_iff, Fin.forall_fin_succ, Pi.single_apply] at c0 c1 c2 d1 d2 d3 hl' <;>
    rcases hl' with rfl | rfl | rfl | rfl <;> simp [secondWeight, others] <;> linarith

/-! ## First derivatives -/

theorem first_sign : ∀ e ∈ Tables.predefined, Sized e 3 [15, 19, 27] ∨ Sized e 2 [9] → ∀ l ∈ e.2.2, l.getD 0 0 = 0 ∨ l.getD 0 0 = 1 ∨ l.getD 0 0 = -1 := by
  decide +kernel

theorem flip_zero {l : List ℤ} (h : l.getD 0 0 = 0) : Spec.flip 0 l = l := by
  cases l with
  | nil => rfl
  | cons a l =>
    simp only [List.getD_cons_zero] at h
    simp [Spec.flip, h]

theorem flip_first (l : List ℤ) (a : ℕ) : (Spec.flip a l).getD 0 0 = if a = 0 then -l.getD 0 0 else l.getD 0 0 := by
  cases l with
  | nil => cases a <;> simp [Spec.flip]
  | cons b l => cases a <;> simp [Spec.flip]

theorem odd_of {e : String × String × List (List ℤ)} (he : e ∈ Tables.predefined) (hQ : Sized e 3 [15, 19, 27] ∨ Sized e 2 [9]) {w : List ℤ → ℚ}
    (h0 : Spec.Antisymmetric e.2.2 w 0) (hs : ∀ a < (e.2.2.headD []).length, a ≠ 0 → Spec.Symmetric e.2.2 w a) :
    ∀ l ∈ e.2.2, w l = (l.getD 0 0 : ℤ) * w (absolute l) := by
  intro l hl
  have h := even_of he (w := fun l => (l.getD 0 0 : ℤ) * w l) (by
    intro a ha l hl
    simp only [flip_first]
    by_cases h : a = 0
    · subst h
      rw [if_pos rfl, h0 l hl]
      push_cast
      ring
    · rw [if_neg h, hs a ha h l hl]) l hl
  have e1 : (absolute l).getD 0 0 = ((l.getD 0 0).natAbs : ℤ) := by
    cases l <;> rfl
  simp only [e1] at h
  rcases first_sign e he hQ l hl with h1 | h1 | h1
  · have := h0 l hl
    rw [flip_zero h1] at this
    rw [h1]
    push_cast
    linarith
  · rw [h1] at h ⊢
    simpa using h
  · rw [h1] at h ⊢
    push_cast at h ⊢
    norm_num at h
    linarith

/-- Exponents used below -/
def exponents₁ : List (Fin 3 → ℕ) := [![1, 0, 0], ![3, 0, 0], ![1, 2, 0], ![1, 0, 2]]

theorem table_sums₁ : ∀ e ∈ Tables.predefined, Sized e 3 [15, 19, 27] → ∀ c ∈ classes 3, ∀ m ∈ exponents₁,
    classSum e.2.2 (fun l => (l.getD 0 0 : ℤ)) m c = if present e.2.2.length (c.countP (· ≠ 0)) then 2 ^ c.countP (· ≠ 0) * ∏ a : Fin 3, (if m a = 0 then 1 else (c.getD a 0 : ℚ)) else 0 := by
  decide +kernel

theorem table_sums₁₂ : ∀ e ∈ Tables.predefined, Sized e 2 [9] → ∀ c ∈ classes 2, ∀ m ∈ [![1, 0], ![3, 0], ![1, 2]],
    classSum e.2.2 (fun l => (l.getD 0 0 : ℤ)) m c = 2 ^ c.countP (· ≠ 0) * ∏ a : Fin 2, (if m a = 0 then 1 else (c.getD a 0 : ℚ)) := by
  decide +kernel

theorem firstWeight_absolute {t : ℕ → ℚ} {l : List ℤ} (h : l.getD 0 0 = 0 ∨ l.getD 0 0 = 1 ∨ l.getD 0 0 = -1) : firstWeight t l = (l.getD 0 0 : ℤ) * firstWeight t (absolute l) := by
  unfold firstWeight
  rw [others_absolute]
  have e1 : (absolute l).getD 0 0 = ((l.getD 0 0).natAbs : ℤ) := by
    cases l <;> rfl
  rw [e1]
  rcases h with h | h | h <;> rw [h] <;> simp

/-- The weights of first derivatives in three dimensions -/
theorem first_unique : ∀ e ∈ Tables.predefined, Sized e 3 [15, 19, 27] → ∀ t ∈ firstTable 3 e.2.2.length, ∀ w : List ℤ → ℚ,
    Spec.Antisymmetric e.2.2 w 0 → Spec.Symmetric e.2.2 w 1 → Spec.Symmetric e.2.2 w 2 → Spec.ConsistentFirst e.2.2 w (0 : Fin 3) → (e.2.2.length = 27 → w [1, 0, 0] = 2 / 9) →
    Spec.IsotropicFirst e.2.2 w (0 : Fin 3) → ∀ l ∈ e.2.2, w l = firstWeight t l := by
  intro e he hQ t ht w h0 h1 h2 hc h27 hi l hl
  have hD := hQ.1
  have hw := odd_of he (.inl hQ) h0 (by
    intro a ha h
    rcases (by omega : a = 1 ∨ a = 2) with rfl | rfl
    · exact h1
    · exact h2)
  have hm := onMonomial_eq (D := 3) (cs := classes 3) (by decide +kernel) (fun l hl => List.mem_of_mem_filter (table_absolute e he hQ l hl)) hw
  have hS := table_sums₁ e he hQ
  rw [hw l hl, firstWeight_absolute (first_sign e he (.inl hQ) l hl)]
  by_cases hl0 : l.getD 0 0 = 0
  · rw [hl0]
    simp
  congr 1
  have hl' := table_absolute e he hQ l hl
  have hn : (absolute l).getD 0 0 ≠ 0 := by
    have e1 : (absolute l).getD 0 0 = ((l.getD 0 0).natAbs : ℤ) := by
      cases l <;> rfl
    rw [e1]
    omega
  generalize absolute l = c at hl' hn ⊢
  have key : ∀ m ∈ exponents₁, Spec.onMonomial e.2.2 w m = ((classes 3).map fun c => w c *
      if present e.2.2.length (c.countP (· ≠ 0)) then 2 ^ c.countP (· ≠ 0) * ∏ a : Fin 3, (if m a = 0 then 1 else (c.getD a 0 : ℚ)) else 0).sum := by
    intro m h
    rw [hm]
    congr 1
    refine List.map_congr_left fun c hc => ?_
    rw [hS c hc m h]
  obtain ⟨lam, hi⟩ := hi
  have c0 := (key _ (by simp [exponents₁])).symm.trans (hc ![1, 0, 0] (by decide))
  have c1 := (key _ (by simp [exponents₁])).symm.trans (hi ![3, 0, 0] (by decide))
  have c2 := (key _ (by simp [exponents₁])).symm.trans (hi ![1, 2, 0] (by decide))
  have c3 := (key _ (by simp [exponents₁])).symm.trans (hi ![1, 0, 2] (by decide))
  have hQ' := hQ.2
  generalize e.2.2.length = Q at *
  simp only [List.mem_cons, List.not_mem_nil, or_false] at hQ'
  clear hm hS hw hc hi key
  rcases hQ' with rfl | rfl | rfl
  · obtain rfl := Option.some.inj ht
    simp [classes, present, Fin.prod_univ_three, Fin.sum_univ_three, funext_iff, Fin.forall_fin_succ, Pi.single_apply] at c0 c1 c2 c3 hl'
    rcases hl' with rfl | rfl | rfl | rfl | rfl <;> simp at hn <;> simp [firstWeight, others] <;> linarith
  · obtain rfl := Option.some.inj ht
    simp [classes, present, Fin.prod_univ_three, Fin.sum_univ_three, funext_iff, Fin.forall_fin_succ, Pi.single_apply] at c0 c1 c2 c3 hl'
    rcases hl' with rfl | rfl | rfl | rfl | rfl | rfl | rfl <;> simp at hn <;> simp [firstWeight, others] <;> linarith
  · obtain rfl := Option.some.inj ht
    have h3 := h27 rfl
    simp [classes, present, Fin.prod_univ_three, Fin.sum_univ_three, funext_iff, Fin.forall_fin_succ, Pi.single_apply] at c0 c1 c2 c3 hl'
    rcases hl' with rfl | rfl | rfl | rfl | rfl | rfl | rfl | rfl <;> simp at hn <;> simp [firstWeight, others] <;> linarith

/-- The weights of first derivatives in two dimensions -/
theorem first_unique₂ : ∀ e ∈ Tables.predefined, Sized e 2 [9] → ∀ t ∈ firstTable 2 e.2.2.length, ∀ w : List ℤ → ℚ,
    Spec.Antisymmetric e.2.2 w 0 → Spec.Symmetric e.2.2 w 1 → Spec.ConsistentFirst e.2.2 w (0 : Fin 2) →
    Spec.IsotropicFirst e.2.2 w (0 : Fin 2) → ∀ l ∈ e.2.2, w l = firstWeight t l := by
  intro e he hQ t ht w h0 h1 hc hi l hl
  have hD := hQ.1
  have hw := odd_of he (.inr hQ) h0 (by
    intro a ha h
    obtain rfl : a = 1 := by omega
    exact h1)
  have hm := onMonomial_eq (D := 2) (cs := classes 2) (by decide +kernel) (table_absolute₂ e he hQ) hw
  have hS := table_sums₁₂ e he hQ
  rw [hw l hl, firstWeight_absolute (first_sign e he (.inr hQ) l hl)]
  by_cases hl0 : l.getD 0 0 = 0
  · rw [hl0]
    simp
  congr 1
  have hl' := table_absolute₂ e he hQ l hl
  have hn : (absolute l).getD 0 0 ≠ 0 := by
    have e1 : (absolute l).getD 0 0 = ((l.getD 0 0).natAbs : ℤ) := by
      cases l <;> rfl
    rw [e1]
    omega
  generalize absolute l = c at hl' hn ⊢
  have key : ∀ m ∈ [![1, 0], ![3, 0], ![1, 2]], Spec.onMonomial e.2.2 w m = ((classes 2).map fun c => w c *
      (2 ^ c.countP (· ≠ 0) * ∏ a : Fin 2, (if m a = 0 then 1 else (c.getD a 0 : ℚ)))).sum := by
    intro m h
    rw [hm]
    congr 1
    refine List.map_congr_left fun c hc => ?_
    rw [hS c hc m h]
  obtain ⟨lam, hi⟩ := hi
  have c0 := (key _ (by simp)).symm.trans (hc ![1, 0] (by decide))
  have c1 := (key _ (by simp)).symm.trans (hi ![3, 0] (by decide))
  have c2 := (key _ (by simp)).symm.trans (hi ![1, 2] (by decide))
  have hQ' := hQ.2
  rw [List.mem_singleton] at hQ'
  rw [hQ'] at ht
  obtain rfl := Option.some.inj ht
  clear hm hS hw hc hi key
  simp [classes, Fin.prod_univ_two, Fin.sum_univ_two, funext_iff, Fin.forall_fin_succ, Pi.single_apply] at c0 c1 c2 hl'
  rcases hl' with rfl | rfl | rfl | rfl <;> simp at hn <;> simp [firstWeight, others] <;> linarith

/-! ## The weights of the tables have the properties -/

theorem onMonomial_congr {D : ℕ} {st : List (List ℤ)} {w w' : List ℤ → ℚ} (h : ∀ l ∈ st, w l = w' l) (m : Fin D → ℕ) : Spec.onMonomial st w m = Spec.onMonomial st w' m := by
  unfold Spec.onMonomial
  congr 1
  exact List.map_congr_left fun l hl => by rw [h l hl]

theorem small {D n : ℕ} (m : Fin D → ℕ) (h : ∑ a, m a ≤ n) : ∃ m' : Fin D → Fin (n + 1), m = fun a => (m' a).val := by
  have h' : ∀ a, m a < n + 1 := fun a => Nat.lt_succ_of_le ((Finset.single_le_sum (f := m) (fun _ _ => Nat.zero_le _) (Finset.mem_univ a)).trans h)
  exact ⟨fun a => ⟨m a, h' a⟩, rfl⟩

theorem second_table : ∀ e ∈ Tables.predefined, Sized e 3 [15, 19, 27] → ∀ i : Fin 3, ∀ t ∈ secondTable 3 e.2.2.length,
    (∀ a < 3, ∀ l ∈ e.2.2, secondWeight t i (Spec.flip a l) = secondWeight t i l) ∧
    (∀ m : Fin 3 → Fin 4, ∑ a, (m a).val ≤ 3 → Spec.onMonomial e.2.2 (secondWeight t i) (fun a => (m a).val) = if (fun a => (m a).val) = Pi.single i 2 then 2 else 0) ∧
    (e.2.2.length ≠ 15 → ∀ m : Fin 3 → Fin 5, ∑ a, (m a).val = 4 → Spec.onMonomial e.2.2 (secondWeight t i) (fun a => (m a).val) =
      1 / 12 * ∑ j, if (fun a => (m a).val) = Pi.single i 2 + Pi.single j 2 then (if i = j then 24 else 4) else 0) := by
  decide +kernel

theorem second_table₂ : ∀ e ∈ Tables.predefined, Sized e 2 [9] → ∀ i : Fin 2, ∀ t ∈ secondTable 2 e.2.2.length,
    (∀ a < 2, ∀ l ∈ e.2.2, secondWeight t i (Spec.flip a l) = secondWeight t i l) ∧
    (∀ m : Fin 2 → Fin 4, ∑ a, (m a).val ≤ 3 → Spec.onMonomial e.2.2 (secondWeight t i) (fun a => (m a).val) = if (fun a => (m a).val) = Pi.single i 2 then 2 else 0) ∧
    (∀ m : Fin 2 → Fin 5, ∑ a, (m a).val = 4 → Spec.onMonomial e.2.2 (secondWeight t i) (fun a => (m a).val) =
      1 / 12 * ∑ j, if (fun a => (m a).val) = Pi.single i 2 + Pi.single j 2 then (if i = j then 24 else 4) else 0) := by
  decide +kernel

theorem first_table : ∀ e ∈ Tables.predefined, Sized e 3 [15, 19, 27] → ∀ t ∈ firstTable 3 e.2.2.length,
    (∀ a < 3, ∀ l ∈ e.2.2, firstWeight t (Spec.flip a l) = if a = 0 then -firstWeight t l else firstWeight t l) ∧
    (∀ m : Fin 3 → Fin 3, ∑ a, (m a).val ≤ 2 → Spec.onMonomial e.2.2 (firstWeight t) (fun a => (m a).val) = if (fun a => (m a).val) = Pi.single 0 1 then 1 else 0) ∧
    (∀ m : Fin 3 → Fin 4, ∑ a, (m a).val = 3 → Spec.onMonomial e.2.2 (firstWeight t) (fun a => (m a).val) =
      1 / 6 * ∑ j, if (fun a => (m a).val) = Pi.single 0 1 + Pi.single j 2 then (if 0 = j then 6 else 2) else 0) := by
  decide +kernel

theorem first_table₂ : ∀ e ∈ Tables.predefined, Sized e 2 [9] → ∀ t ∈ firstTable 2 e.2.2.length,
    (∀ a < 2, ∀ l ∈ e.2.2, firstWeight t (Spec.flip a l) = if a = 0 then -firstWeight t l else firstWeight t l) ∧
    (∀ m : Fin 2 → Fin 3, ∑ a, (m a).val ≤ 2 → Spec.onMonomial e.2.2 (firstWeight t) (fun a => (m a).val) = if (fun a => (m a).val) = Pi.single 0 1 then 1 else 0) ∧
    (∀ m : Fin 2 → Fin 4, ∑ a, (m a).val = 3 → Spec.onMonomial e.2.2 (firstWeight t) (fun a => (m a).val) =
      1 / 6 * ∑ j, if (fun a => (m a).val) = Pi.single 0 1 + Pi.single j 2 then (if 0 = j then 6 else 2) else 0) := by
  decide +kernel

theorem table_centre : ∀ e ∈ Tables.predefined, Sized e 3 [15, 19, 27] → [0, 0, 0] ∈ e.2.2 ∧ [1, 0, 0] ∈ e.2.2 := by
  decide +kernel

/-- **C93 (weights of second derivatives).** In three dimensions the weights are the only ones that have the symmetries, the weights set by the caller, second order and,
but for 15 directions, an isotropic leading error. -/
theorem C93_second_weights : ∀ e ∈ Tables.predefined, Sized e 3 [15, 19, 27] → ∀ i : Fin 3, ∀ t ∈ secondTable 3 e.2.2.length, ∀ w : List ℤ → ℚ,
    ((∀ l ∈ e.2.2, w l = secondWeight t i l) ↔ (∀ a < 3, Spec.Symmetric e.2.2 w a) ∧ Spec.ConsistentSecond e.2.2 w i ∧ (e.2.2.length = 15 → w [0, 0, 0] = -32 / 27) ∧
      (e.2.2.length = 27 → w [0, 0, 0] = -38 / 27) ∧ (e.2.2.length ≠ 15 → Spec.IsotropicSecond e.2.2 w i)) := by
  intro e he hQ i t ht w
  constructor
  · intro h
    obtain ⟨h1, h2, h3⟩ := second_table e he hQ i t ht
    have hz := (table_centre e he hQ).1
    refine ⟨fun a ha l hl => ?_, fun m hm => ?_, fun h15 => ?_, fun h27 => ?_, fun h15 => ⟨1 / 12, fun m hm => ?_⟩⟩
    · rw [h l hl, h _ (table_flip e he a (hQ.1.symm ▸ ha) l hl), h1 a ha l hl]
    · obtain ⟨m', rfl⟩ := small m hm
      rw [onMonomial_congr h, h2 m' hm]
    · rw [h15] at ht
      obtain rfl := Option.some.inj ht
      rw [h _ hz]
      fin_cases i <;> rfl
    · rw [h27] at ht
      obtain rfl := Option.some.inj ht
      rw [h _ hz]
      fin_cases i <;> rfl
    · obtain ⟨m', rfl⟩ := small m hm.le
      rw [onMonomial_congr h, h3 h15 m' hm]
  · rintro ⟨h1, h2, h3, h4, h5⟩
    exact second_unique e he hQ i t ht w h1 h2 h3 h4 h5

/-- **C93 (weights of second derivatives, two dimensions).** -/
theorem C93_second_weights_2d : ∀ e ∈ Tables.predefined, Sized e 2 [9] → ∀ i : Fin 2, ∀ t ∈ secondTable 2 e.2.2.length, ∀ w : List ℤ → ℚ,
    ((∀ l ∈ e.2.2, w l = secondWeight t i l) ↔ (∀ a < 2, Spec.Symmetric e.2.2 w a) ∧ Spec.ConsistentSecond e.2.2 w i ∧ Spec.IsotropicSecond e.2.2 w i) := by
  intro e he hQ i t ht w
  constructor
  · intro h
    obtain ⟨h1, h2, h3⟩ := second_table₂ e he hQ i t ht
    refine ⟨fun a ha l hl => ?_, fun m hm => ?_, ⟨1 / 12, fun m hm => ?_⟩⟩
    · rw [h l hl, h _ (table_flip e he a (hQ.1.symm ▸ ha) l hl), h1 a ha l hl]
    · obtain ⟨m', rfl⟩ := small m hm
      rw [onMonomial_congr h, h2 m' hm]
    · obtain ⟨m', rfl⟩ := small m hm.le
      rw [onMonomial_congr h, h3 m' hm]
  · rintro ⟨h1, h2, h3⟩
    exact second_unique₂ e he hQ i t ht w h1 h2 h3

/-- **C93 (weights of the first derivative).** The weights along the first axis are the only ones that have the symmetries, the weight set by the caller with 27 directions, second
order, and an isotropic leading error; the weights set with 19 directions follow from the others. -/
theorem C93_first_weights : ∀ e ∈ Tables.predefined, Sized e 3 [15, 19, 27] → ∀ t ∈ firstTable 3 e.2.2.length, ∀ w : List ℤ → ℚ,
    ((∀ l ∈ e.2.2, w l = firstWeight t l) ↔ Spec.Antisymmetric e.2.2 w 0 ∧ Spec.Symmetric e.2.2 w 1 ∧ Spec.Symmetric e.2.2 w 2 ∧ Spec.ConsistentFirst e.2.2 w (0 : Fin 3) ∧
      (e.2.2.length = 27 → w [1, 0, 0] = 2 / 9) ∧ Spec.IsotropicFirst e.2.2 w (0 : Fin 3)) ∧
    firstWeight t [0, 0, 0] = 0 ∧ (e.2.2.length = 19 → firstWeight t [1, 0, 0] = 1 / 6) := by
  intro e he hQ t ht w
  refine ⟨⟨fun h => ?_, ?_⟩, ?_, fun h19 => ?_⟩
  · obtain ⟨h1, h2, h3⟩ := first_table e he hQ t ht
    have hf := fun a (ha : a < 3) l hl => h _ (table_flip e he a (hQ.1.symm ▸ ha) l hl)
    refine ⟨fun l hl => ?_, fun l hl => ?_, fun l hl => ?_, fun m hm => ?_, fun h27 => ?_, ⟨1 / 6, fun m hm => ?_⟩⟩
    · rw [h l hl, hf 0 (by decide) l hl, h1 0 (by decide) l hl, if_pos rfl]
    · rw [h l hl, hf 1 (by decide) l hl, h1 1 (by decide) l hl, if_neg (by decide)]
    · rw [h l hl, hf 2 (by decide) l hl, h1 2 (by decide) l hl, if_neg (by decide)]
    · obtain ⟨m', rfl⟩ := small m hm
      rw [onMonomial_congr h, h2 m' hm]
    · rw [h27] at ht
      obtain rfl := Option.some.inj ht
      rw [h _ (table_centre e he hQ).2]
      rw [firstWeight]
      norm_num [others]
    · obtain ⟨m', rfl⟩ := small m hm.le
      rw [onMonomial_congr h, h3 m' hm]
  · rintro ⟨h1, h2, h3, h4, h5, h6⟩
    exact first_unique e he hQ t ht w h1 h2 h3 h4 h5 h6
  · simp [firstWeight]
  · rw [h19] at ht
    obtain rfl := Option.some.inj ht
    rw [firstWeight]
    norm_num [others]

/-- **C93 (weights of the first derivative, two dimensions).** -/
theorem C93_first_weights_2d : ∀ e ∈ Tables.predefined, Sized e 2 [9] → ∀ t ∈ firstTable 2 e.2.2.length, ∀ w : List ℤ → ℚ,
    ((∀ l ∈ e.2.2, w l = firstWeight t l) ↔ Spec.Antisymmetric e.2.2 w 0 ∧ Spec.Symmetric e.2.2 w 1 ∧ Spec.ConsistentFirst e.2.2 w (0 : Fin 2) ∧
      Spec.IsotropicFirst e.2.2 w (0 : Fin 2)) := by
  intro e he hQ t ht w
  constructor
  · intro h
    obtain ⟨h1, h2, h3⟩ := first_table₂ e he hQ t ht
    have hf := fun a (ha : a < 2) l hl => h _ (table_flip e he a (hQ.1.symm ▸ ha) l hl)
    refine ⟨fun l hl => ?_, fun l hl => ?_, fun m hm => ?_, ⟨1 / 6, fun m hm => ?_⟩⟩
    · rw [h l hl, hf 0 (by decide) l hl, h1 0 (by decide) l hl, if_pos rfl]
    · rw [h l hl, hf 1 (by decide) l hl, h1 1 (by decide) l hl, if_neg (by decide)]
    · obtain ⟨m', rfl⟩ := small m hm
      rw [onMonomial_congr h, h2 m' hm]
    · obtain ⟨m', rfl⟩ := small m hm.le
      rw [onMonomial_congr h, h3 m' hm]
  · rintro ⟨h1, h2, h3, h4⟩
    exact first_unique₂ e he hQ t ht w h1 h2 h3 h4

/-- **C93 (15 directions).** No symmetric weights on 15 directions whatsoever make a second derivative of second order with an isotropic leading error, although the
code asks for it. -/
theorem C93_second_15 : ∀ e ∈ Tables.predefined, Sized e 3 [15] → ∀ (i : Fin 3) (w : List ℤ → ℚ), (∀ a < 3, Spec.Symmetric e.2.2 w a) → Spec.ConsistentSecond e.2.2 w i →
    ¬ Spec.IsotropicSecond e.2.2 w i := by
  rintro e he ⟨hD, hQ⟩ i w hs hc ⟨lam, hi⟩
  rw [List.mem_singleton] at hQ
  have hQ' : Sized e 3 [15, 19, 27] := ⟨hD, by rw [hQ]; decide⟩
  have hw : ∀ l ∈ e.2.2, w l = 1 * w (absolute l) := by
    intro l hl
    rw [one_mul]
    exact even_of he (hD ▸ hs) l hl
  have hm := onMonomial_eq (D := 3) (cs := classes 3) (by decide +kernel) (fun l hl => List.mem_of_mem_filter (table_absolute e he hQ' l hl)) hw
  have hS := table_sums e he hQ'
  rw [hQ] at hS
  have key : ∀ m ∈ exponents, Spec.onMonomial e.2.2 w m = ((classes 3).map fun c => w c *
      if present 15 (c.countP (· ≠ 0)) then 2 ^ c.countP (· ≠ 0) * ∏ a : Fin 3, (if m a = 0 then 1 else (c.getD a 0 : ℚ)) else 0).sum := by
    intro m h
    rw [hm]
    congr 1
    refine List.map_congr_left fun c hc => ?_
    rw [hS c hc m h]
  have c1 := (key _ (by simp [exponents])).symm.trans (hc ![2, 0, 0] (by decide))
  have c2 := (key _ (by simp [exponents])).symm.trans (hc ![0, 2, 0] (by decide))
  have c3 := (key _ (by simp [exponents])).symm.trans (hc ![0, 0, 2] (by decide))
  have d1 := (key _ (by simp [exponents])).symm.trans (hi ![4, 0, 0] (by decide))
  have d2 := (key _ (by simp [exponents])).symm.trans (hi ![0, 4, 0] (by decide))
  have d3 := (key _ (by simp [exponents])).symm.trans (hi ![0, 0, 4] (by decide))
  have d4 := (key _ (by simp [exponents])).symm.trans (hi ![2, 2, 0] (by decide))
  have d5 := (key _ (by simp [exponents])).symm.trans (hi ![2, 0, 2] (by decide))
  have d6 := (key _ (by simp [exponents])).symm.trans (hi ![0, 2, 2] (by decide))
  clear hm hS hw hs hc hi key
  fin_cases i <;>
    simp [classes, present, Fin.prod_univ_three, Fin.sum_univ_three, funext_iff, Fin.forall_fin_succ, Pi.single_apply] at c1 c2 c3 d1 d2 d3 d4 d5 d6 <;>
    linarith

/-- The predefined stencils contain each of the sizes. -/
example : ∀ Q ∈ [15, 19, 27], ∃ e ∈ Tables.predefined, Sized e 3 [Q] ∧ (secondTable 3 Q).isSome ∧ (firstTable 3 Q).isSome := by
  decide +kernel

example : ∃ e ∈ Tables.predefined, Sized e 2 [9] ∧ (secondTable 2 9).isSome ∧ (firstTable 2 9).isSome := by
  decide +kernel

/-- On D3Q15 there are weights that meet all the other requirements. -/
example : ∃ e ∈ Tables.predefined, Sized e 3 [15] ∧ ∃ w : List ℤ → ℚ, (∀ a < 3, Spec.Symmetric e.2.2 w a) ∧ Spec.ConsistentSecond e.2.2 w (0 : Fin 3) := by
  obtain ⟨e, he, h⟩ : ∃ e ∈ Tables.predefined, Sized e 3 [15] := by decide +kernel
  have hQ : e.2.2.length = 15 := List.mem_singleton.1 h.2
  have h1 := (C93_second_weights e he ⟨h.1, by rw [hQ]; decide⟩ 0 _ (by rw [hQ]; rfl) _).1 fun _ _ => rfl
  exact ⟨e, he, h, _, h1.1, h1.2.1⟩

end Derivatives
end Lbm
