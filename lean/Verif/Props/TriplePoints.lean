import Verif.Props.Circles

/-!
# Intersections of contour lines and triple points (C80)
-/

namespace Lbm
namespace PostProcessing

open Flt

namespace Spec

variable {K : Type} [Field K] [LinearOrder K]

/-- The point at the parameter `t` of a segment: the start at 0, the end at 1 -/
def at' (s : Seg K) (t : K) : K × K := (s.1.1 + t * (s.2.1 - s.1.1), s.1.2 + t * (s.2.2 - s.1.2))

/-- Neither horizontal nor vertical -/
def Slanted (s : Seg K) : Prop := s.1.1 ≠ s.2.1 ∧ s.1.2 ≠ s.2.2

/-- The directions of the segments are not parallel. -/
def Transversal (s1 s2 : Seg K) : Prop :=
  (s1.2.1 - s1.1.1) * (s2.2.2 - s2.1.2) ≠ (s1.2.2 - s1.1.2) * (s2.2.1 - s2.1.1)

end Spec

section

variable {K : Type} [Field K] [LinearOrder K]

theorem fadd_num (x y : K) : Flt.add (num x) (num y) = num (x + y) := rfl
theorem fmul_num (x y : K) : Flt.mul (num x) (num y) = num (x * y) := rfl
theorem fsub_num (x y : K) : Flt.sub (num x) (num y) = num (x - y) := by
  rw [sub_eq_add_neg]
  rfl
theorem fdiv_num {x y : K} (h : y ≠ 0) : Flt.div (num x) (num y) = num (x / y) := by simp [Flt.div, h]

/-- The lines of two slanted transversal segments meet in the point computed. -/
theorem cross_eq {s1 s2 : Seg K} (h1 : Spec.Slanted s1) (h2 : Spec.Slanted s2) (ht : Spec.Transversal s1 s2) {t u : K}
    (h : Spec.at' s1 t = Spec.at' s2 u) : crossX s1 s2 = num (Spec.at' s1 t).1 ∧ crossY s1 s2 = num (Spec.at' s1 t).2 := by
  have hx1 := sub_ne_zero.2 h1.1.symm
  have hy1 := sub_ne_zero.2 h1.2.symm
  have hx2 := sub_ne_zero.2 h2.1.symm
  have hy2 := sub_ne_zero.2 h2.2.symm
  unfold Spec.Transversal at ht
  simp only [Spec.at', Prod.mk.injEq] at h ⊢
  obtain ⟨ex, ey⟩ := h
  set dx1 := s1.2.1 - s1.1.1
  set dy1 := s1.2.2 - s1.1.2
  set dx2 := s2.2.1 - s2.1.1
  set dy2 := s2.2.2 - s2.1.2
  have hd : 1 - dy1 / dx1 * (1 / (dy2 / dx2)) ≠ 0 := by
    intro e
    apply ht
    field_simp at e
    linear_combination e
  have hY : crossY s1 s2 = num (s1.1.2 + t * dy1) := by
    simp only [crossY, slope]
    rw [fdiv_num hx1, fdiv_num hx2, fdiv_num (div_ne_zero hy2 hx2)]
    simp only [fadd_num, fmul_num, fsub_num]
    rw [fdiv_num hd]
    congr 1
    rw [div_eq_iff hd]
    field_simp
    linear_combination (-dy1 * dy2) * ex + dy1 * dx2 * ey
  refine ⟨?_, hY⟩
  simp only [crossX, slope]
  rw [hY, fdiv_num hx2, fdiv_num (div_ne_zero hy2 hx2)]
  simp only [fadd_num, fmul_num, fsub_num]
  congr 1
  field_simp
  linear_combination dx2 * ey - dy2 * ex

variable [IsStrictOrderedRing K]

theorem within_iff {a b : K} (hab : a ≠ b) (t : K) : (0 < t ∧ t < 1 → within a b (num (a + t * (b - a))) = true) ∧
    (t < 0 ∨ 1 < t → within a b (num (a + t * (b - a))) = false) := by
  rcases lt_or_gt_of_ne hab with h | h
  · rw [within, if_pos h, if_neg (not_lt.2 h.le)]
    have hp : 0 < b - a := sub_pos.2 h
    refine ⟨fun ⟨h0, h1⟩ => ?_, ?_⟩
    · simp only [Flt.gt, Flt.le, Bool.and_eq_true, decide_eq_true_eq]
      constructor <;> nlinarith
    · simp only [Flt.gt, Flt.le, Bool.and_eq_false_iff, decide_eq_false_iff_not, not_lt, not_le]
      rintro (h0 | h0)
      · left; nlinarith
      · right; nlinarith
  · rw [within, if_neg (not_lt.2 h.le), if_pos h]
    have hp : 0 < a - b := sub_pos.2 h
    refine ⟨fun ⟨h0, h1⟩ => ?_, ?_⟩
    · simp only [Flt.gt, Flt.le, Bool.and_eq_true, decide_eq_true_eq]
      constructor <;> nlinarith
    · simp only [Flt.gt, Flt.le, Bool.and_eq_false_iff, decide_eq_false_iff_not, not_lt, not_le]
      rintro (h0 | h0)
      · right; nlinarith
      · left; nlinarith

/-- **C80 (crossing segments).**  Two slanted segments that cross inside both yield their common point. -/
theorem C80_crossing (a b c d : K × K) (h1 : Spec.Slanted (a, b)) (h2 : Spec.Slanted (c, d)) (ht : Spec.Transversal (a, b) (c, d)) {t u : K}
    (h : Spec.at' (a, b) t = Spec.at' (c, d) u) (t0 : 0 < t) (t1 : t < 1) (u0 : 0 < u) (u1 : u < 1) :
    findIntersections [a, b] [c, d] = ([num (Spec.at' (a, b) t).1], [num (Spec.at' (a, b) t).2]) := by
  obtain ⟨hx, hy⟩ := cross_eq h1 h2 ht h
  have e1 := (within_iff h1.1 t).1 ⟨t0, t1⟩
  have e2 := (within_iff h1.2 t).1 ⟨t0, t1⟩
  have e3 := (within_iff h2.1 u).1 ⟨u0, u1⟩
  have e4 := (within_iff h2.2 u).1 ⟨u0, u1⟩
  have hX : xCond (a, b) (c, d) = true := by
    rw [xCond, hx, Bool.and_eq_true]
    exact ⟨e1, by rw [h]; exact e3⟩
  have hY : yCond (a, b) (c, d) = true := by
    rw [yCond, hy, Bool.and_eq_true]
    exact ⟨e2, by rw [h]; exact e4⟩
  simp [findIntersections, segments, hX, hY, hx, hy]

/-- **C80 (segments apart).**  Two slanted segments whose lines meet outside one of them yield nothing. -/
theorem C80_apart (a b c d : K × K) (h1 : Spec.Slanted (a, b)) (h2 : Spec.Slanted (c, d)) (ht : Spec.Transversal (a, b) (c, d)) {t u : K}
    (h : Spec.at' (a, b) t = Spec.at' (c, d) u) (ho : (t < 0 ∨ 1 < t) ∨ (u < 0 ∨ 1 < u)) :
    findIntersections [a, b] [c, d] = ([], []) := by
  obtain ⟨hx, hy⟩ := cross_eq h1 h2 ht h
  have hX : xCond (a, b) (c, d) = false := by
    rw [xCond, hx, Bool.and_eq_false_iff]
    rcases ho with ho | ho
    · exact Or.inl ((within_iff h1.1 t).2 ho)
    · right; rw [h]; exact (within_iff h2.1 u).2 ho
  have hY : yCond (a, b) (c, d) = false := by
    rw [yCond, hy, Bool.and_eq_false_iff]
    rcases ho with ho | ho
    · exact Or.inl ((within_iff h1.2 t).2 ho)
    · right; rw [h]; exact (within_iff h2.2 u).2 ho
  simp [findIntersections, segments, hX, hY]

omit [IsStrictOrderedRing K] in
theorem within_self (a : K) (v : Flt K) : within a a v = false := by
  rw [within, ite_self]
  cases v with
  | num x => simp [Flt.gt, Flt.le]
  | inf s => cases s <;> rfl
  | nan => rfl

omit [IsStrictOrderedRing K] in
/-- **C80 (horizontal and vertical segments).**  No ordinate is ever returned for a horizontal segment, and no abscissa for a vertical
one, crossing or not. -/
theorem C80_axis_parallel (s1 s2 : Seg K) :
    (s1.1.2 = s1.2.2 ∨ s2.1.2 = s2.2.2 → yCond s1 s2 = false) ∧ (s1.1.1 = s1.2.1 ∨ s2.1.1 = s2.2.1 → xCond s1 s2 = false) := by
  constructor
  · rintro (h | h)
    · rw [yCond, h, within_self]; rfl
    · rw [yCond, h, within_self, Bool.and_false]
  · rintro (h | h)
    · rw [xCond, h, within_self]; rfl
    · rw [xCond, h, within_self, Bool.and_false]

omit [IsStrictOrderedRing K] in
theorem within_not_num (a b : K) {v : Flt K} (h : ∀ x, v ≠ num x) : within a b v = false := by
  cases v with
  | num x => exact absurd rfl (h x)
  | inf s => cases s <;> simp [within, Flt.gt, Flt.le]
  | nan => rfl

omit [IsStrictOrderedRing K] in
/-- **C80 (parallel segments).**  Two slanted segments of the same slope yield nothing, even if they lie on the same line; neither
do two horizontal ones. -/
theorem C80_parallel (a b c d : K × K) (hs : (Spec.Slanted (a, b) ∧ Spec.Slanted (c, d) ∧ ¬ Spec.Transversal (a, b) (c, d)) ∨
    (a.1 ≠ b.1 ∧ c.1 ≠ d.1 ∧ a.2 = b.2 ∧ c.2 = d.2)) : findIntersections [a, b] [c, d] = ([], []) := by
  have key : (∀ x, crossX (a, b) (c, d) ≠ num x) ∧ ∀ y, crossY (a, b) (c, d) ≠ num y := by
    rcases hs with ⟨h1, h2, ht⟩ | ⟨h1, h2, h3, h4⟩
    · have hx1 := sub_ne_zero.2 h1.1.symm
      have hx2 := sub_ne_zero.2 h2.1.symm
      have hy2 := sub_ne_zero.2 h2.2.symm
      unfold Spec.Transversal at ht
      rw [not_not] at ht
      simp only at hx1 hx2 hy2 ht
      have hd : 1 - (b.2 - a.2) / (b.1 - a.1) * (1 / ((d.2 - c.2) / (d.1 - c.1))) = 0 := by
        field_simp
        linear_combination ht
      have hY : ∀ y, crossY (a, b) (c, d) ≠ num y := by
        intro y
        simp only [crossY, slope]
        rw [fdiv_num hx1, fdiv_num hx2, fdiv_num (div_ne_zero hy2 hx2)]
        simp only [fadd_num, fmul_num, fsub_num]
        rw [hd]
        simp only [Flt.div, if_true]
        split_ifs <;> simp
      refine ⟨?_, hY⟩
      intro x
      simp only [crossX, slope]
      rw [fdiv_num hx2, fdiv_num (div_ne_zero hy2 hx2)]
      cases h : crossY (a, b) (c, d) with
      | num y => exact absurd h (hY y)
      | nan => simp [Flt.sub, Flt.add, Flt.neg, Flt.mul]
      | inf s =>
        simp only [Flt.sub, Flt.add, Flt.neg, Flt.mul]
        split_ifs <;> simp
    · have hx1 : b.1 - a.1 ≠ 0 := sub_ne_zero.2 h1.symm
      have hx2 : d.1 - c.1 ≠ 0 := sub_ne_zero.2 h2.symm
      have hY : crossY (a, b) (c, d) = nan := by
        simp only [crossY, slope, h3, h4, sub_self]
        rw [fdiv_num hx1, fdiv_num hx2, zero_div, zero_div]
        simp [Flt.div, Flt.mul, Flt.sub, Flt.add, Flt.neg]
      refine ⟨?_, by simp [hY]⟩
      intro x
      simp only [crossX, hY]
      simp [Flt.mul, Flt.sub, Flt.add, Flt.neg]
  have hX : xCond (a, b) (c, d) = false := by rw [xCond, within_not_num _ _ key.1]; rfl
  have hY : yCond (a, b) (c, d) = false := by rw [yCond, within_not_num _ _ key.2]; rfl
  simp [findIntersections, segments, hX, hY]

end

/-- Two segments of the same line -/
example : findIntersections [((0 : ℚ), (0 : ℚ)), (2, 2)] [(1, 1), (3, 3)] = ([], []) :=
  C80_parallel _ _ _ _ (Or.inl ⟨by constructor <;> norm_num, by constructor <;> norm_num, by unfold Spec.Transversal; norm_num⟩)

/-- **C80 (a crossing lost by half).**  A horizontal segment crossed by a slanted one: the abscissa is found, the ordinate is not, and
`np.array` raises. -/
theorem C80_ragged : findIntersections [(0, 0), (2, 0)] [((0 : ℚ), (-1 : ℚ)), (2, 1)] = ([num 1], []) ∧
    lineIntersections [[(0, 0), (2, 0)]] [[((0 : ℚ), (-1 : ℚ)), (2, 1)]] = .error .valueError := by
  constructor <;> decide +kernel

/-- **C80 (an end point lost by half).**  Two slanted segments that share an end point: the answer depends on the direction of the
slopes; here the abscissa is returned and the ordinate is not. -/
theorem C80_endpoint : findIntersections [(0, 2), (2, 0)] [((1 : ℚ), (-1 : ℚ)), (3, 1)] = ([num 2], []) := by decide +kernel

/-- **C80 (a point on neither line).**  Two paths for which the halves of two different crossings are put together: the only point
returned lies on neither path. -/
theorem C80_wrong_point :
    lineIntersections [[(0, 0), (2, 0), (4, 2)]] [[((0 : ℚ), (-1 : ℚ)), (2, 1), (3, 3), (3, 0)]] = .ok [(num 1, num 1)] ∧
    (∀ s ∈ segments [((0 : ℚ), (0 : ℚ)), (2, 0), (4, 2)], ∀ t, 0 ≤ t → t ≤ 1 → Spec.at' s t ≠ (1, 1)) ∧
    (∀ s ∈ segments [((0 : ℚ), (-1 : ℚ)), (2, 1), (3, 3), (3, 0)], ∀ t, 0 ≤ t → t ≤ 1 → Spec.at' s t ≠ (1, 1)) := by
  refine ⟨by decide +kernel, ?_, ?_⟩
  · intro s hs t h0 h1 h
    simp only [segments, List.tail_cons, List.zip_cons_cons, List.zip_nil_right, List.mem_cons, List.not_mem_nil, or_false] at hs
    rcases hs with rfl | rfl <;> simp only [Spec.at', Prod.mk.injEq] at h <;> linarith [h.1, h.2]
  · intro s hs t h0 h1 h
    simp only [segments, List.tail_cons, List.zip_cons_cons, List.zip_nil_right, List.mem_cons, List.not_mem_nil, or_false] at hs
    rcases hs with rfl | rfl | rfl <;> simp only [Spec.at', Prod.mk.injEq] at h <;> linarith [h.1, h.2]

/-! ## Triple points -/

theorem argmin_spec (f : Pt → ℝ) (l : List Pt) : ∀ b, argmin f b l ∈ b :: l ∧ ∀ q ∈ b :: l, f (argmin f b l) ≤ f q := by
  induction l with
  | nil => intro b; simp [argmin]
  | cons a l ih =>
    intro b
    rw [argmin]
    split_ifs with h
    · obtain ⟨h1, h2⟩ := ih a
      refine ⟨List.mem_cons_of_mem _ h1, ?_⟩
      intro q hq
      rcases List.mem_cons.1 hq with rfl | hq
      · exact (h2 a (by simp)).trans h.le
      · exact h2 q hq
    · obtain ⟨h1, h2⟩ := ih b
      refine ⟨?_, ?_⟩
      · rcases List.mem_cons.1 h1 with h1 | h1
        · rw [h1]; simp
        · exact List.mem_cons_of_mem _ (List.mem_cons_of_mem _ h1)
      · intro q hq
        rcases List.mem_cons.1 hq with rfl | hq
        · exact h2 _ (by simp)
        · rcases List.mem_cons.1 hq with rfl | hq
          · exact (h2 b (by simp)).trans (not_lt.1 h)
          · exact h2 q (List.mem_cons_of_mem _ hq)

/-- **C80 (closest point).**  The point returned is in the list, none is closer, and the number returned is its distance. -/
theorem C80_closest (p : Pt) (l : List Pt) (hl : l ≠ []) : ∃ c d, findClosestPoint p l = .ok (c, d) ∧ c ∈ l ∧
    d = Real.sqrt ((c.1 - p.1) ^ 2 + (c.2 - p.2) ^ 2) ∧
    ∀ q ∈ l, (c.1 - p.1) ^ 2 + (c.2 - p.2) ^ 2 ≤ (q.1 - p.1) ^ 2 + (q.2 - p.2) ^ 2 := by
  cases l with
  | nil => exact absurd rfl hl
  | cons a l =>
    obtain ⟨h1, h2⟩ := argmin_spec (fun r => distSq r p) l a
    exact ⟨_, _, rfl, h1, rfl, h2⟩

/-- What `tripleCenters` makes of one point -/
noncomputable def candidate (i12 i02 : List Pt) (threshold : ℝ) (p : Pt) : Except PyErr (Option Pt) := do
  let (c1, d1) ← findClosestPoint p i12
  let (c2, d2) ← findClosestPoint p i02
  if d1 > threshold ∨ d2 > threshold then pure none
  else pure (some (((p.1 + c1.1 + c2.1) / 3, (p.2 + c1.2 + c2.2) / 3) : Pt))

theorem mapM_ok {α β : Type} (f : α → Except PyErr β) (g : α → β) (l : List α) (h : ∀ a ∈ l, f a = .ok (g a)) :
    l.mapM f = .ok (l.map g) := by
  induction l with
  | nil => rfl
  | cons a l ih =>
    rw [List.mapM_cons, h a (by simp), ih (fun b hb => h b (List.mem_cons_of_mem _ hb))]
    rfl

/-- **C80 (triple points).**  If all three pairs of phases have intersections, a list of points is returned.  Every point of it is the
centroid of an intersection of each pair, the second and third no farther than the threshold from the first.  A point common to all
three lists is in it. -/
theorem C80_triple_points (i01 i12 i02 : List Pt) (threshold : ℝ) (h01 : i01 ≠ []) (h12 : i12 ≠ []) (h02 : i02 ≠ []) :
    ∃ l, tripleCenters i01 i12 i02 threshold = .ok (.points l) ∧
      (∀ c ∈ l, ∃ p ∈ i01, ∃ q ∈ i12, ∃ r ∈ i02, c = ((p.1 + q.1 + r.1) / 3, (p.2 + q.2 + r.2) / 3) ∧
        Real.sqrt ((q.1 - p.1) ^ 2 + (q.2 - p.2) ^ 2) ≤ threshold ∧ Real.sqrt ((r.1 - p.1) ^ 2 + (r.2 - p.2) ^ 2) ≤ threshold) ∧
      (0 ≤ threshold → ∀ p, p ∈ i01 → p ∈ i12 → p ∈ i02 → p ∈ l) := by
  have hex : ∀ p, ∃ o, candidate i12 i02 threshold p = .ok o ∧
      (∀ c, o = some c → ∃ q ∈ i12, ∃ r ∈ i02, c = ((p.1 + q.1 + r.1) / 3, (p.2 + q.2 + r.2) / 3) ∧
        Real.sqrt ((q.1 - p.1) ^ 2 + (q.2 - p.2) ^ 2) ≤ threshold ∧ Real.sqrt ((r.1 - p.1) ^ 2 + (r.2 - p.2) ^ 2) ≤ threshold) ∧
      (0 ≤ threshold → p ∈ i12 → p ∈ i02 → o = some p) := by
    intro p
    obtain ⟨c1, d1, e1, m1, v1, n1⟩ := C80_closest p i12 h12
    obtain ⟨c2, d2, e2, m2, v2, n2⟩ := C80_closest p i02 h02
    have same : ∀ c : Pt, (c.1 - p.1) ^ 2 + (c.2 - p.2) ^ 2 ≤ 0 → c = p := by
      intro c hc
      have a1 : c.1 - p.1 = 0 := by nlinarith [sq_nonneg (c.1 - p.1), sq_nonneg (c.2 - p.2)]
      have a2 : c.2 - p.2 = 0 := by nlinarith [sq_nonneg (c.1 - p.1), sq_nonneg (c.2 - p.2)]
      exact Prod.ext (by linarith) (by linarith)
    by_cases hd : d1 > threshold ∨ d2 > threshold
    · refine ⟨none, ?_, by simp, ?_⟩
      · simp only [candidate, e1, e2, bind, Except.bind, if_pos hd]
        rfl
      · intro h0 hp hq
        have s1 := same c1 (by simpa using n1 p hp)
        have s2 := same c2 (by simpa using n2 p hq)
        rw [v1, v2, s1, s2] at hd
        simp at hd
        linarith
    · refine ⟨some ((p.1 + c1.1 + c2.1) / 3, (p.2 + c1.2 + c2.2) / 3), ?_, ?_, ?_⟩
      · simp only [candidate, e1, e2, bind, Except.bind, if_neg hd]
        rfl
      · rintro c hc
        cases hc
        rw [not_or, not_lt, not_lt] at hd
        exact ⟨c1, m1, c2, m2, rfl, v1 ▸ hd.1, v2 ▸ hd.2⟩
      · intro h0 hp hq
        rw [same c1 (by simpa using n1 p hp), same c2 (by simpa using n2 p hq)]
        congr 1
        ext <;> ring
  choose g hg hs hc using hex
  refine ⟨(i01.map g).filterMap id, ?_, ?_, ?_⟩
  · unfold tripleCenters
    rw [if_neg]
    · have : (i01.mapM fun p => candidate i12 i02 threshold p) = .ok (i01.map g) := mapM_ok _ _ _ (fun p _ => hg p)
      change ((i01.mapM fun p => candidate i12 i02 threshold p) >>= fun l => pure (Centers.points (l.filterMap id))) = _
      rw [this]
      rfl
    · have a := List.length_pos_iff.2 h01
      have b := List.length_pos_iff.2 h12
      have c := List.length_pos_iff.2 h02
      omega
  · intro c hcm
    obtain ⟨o, ho, e⟩ := List.mem_filterMap.1 hcm
    obtain ⟨p, hp, rfl⟩ := List.mem_map.1 ho
    obtain ⟨q, hq, r, hr, h⟩ := hs p c e
    exact ⟨p, hp, q, hq, r, hr, h⟩
  · intro h0 p hp hq hr
    exact List.mem_filterMap.2 ⟨some p, List.mem_map.2 ⟨p, hp, hc p h0 hq hr⟩, rfl⟩

/-- **C80 (no triple points).**  If a pair of phases has no intersection, `get_triple_points` does not return the empty list announced but
raises. -/
theorem C80_none (i01 i12 i02 : List Pt) (threshold : ℝ) (p01 p12 p20 : List Pt) (h : i01 = [] ∨ i12 = [] ∨ i02 = []) :
    (tripleCenters i01 i12 i02 threshold >>= fun c => triplePoints c p01 p12 p20) = .error .valueError := by
  unfold tripleCenters
  rw [if_pos]
  · rfl
  · rcases h with rfl | rfl | rfl <;> simp

/-- **C80 (angle).**  The angle is a number exactly if both points differ from the centre; it then lies between 0 and 180 degrees and does
not depend on the order of the points. -/
theorem C80_angle (c p q : Pt) : ((getAngle c p q).isSome ↔ p ≠ c ∧ q ≠ c) ∧ getAngle c q p = getAngle c p q ∧
    ∀ a, getAngle c p q = some a → 0 ≤ a ∧ a ≤ 180 ∧
      (p.1 - c.1) * (q.1 - c.1) + (p.2 - c.2) * (q.2 - c.2) = norm (p - c) * norm (q - c) * Real.cos (Spec.rad a) := by
  have hpi := Real.pi_pos
  have key : ∀ v : Pt, norm v = 0 ↔ v = 0 := by
    intro v
    constructor
    · intro h
      have := norm_sq v
      rw [h] at this
      have a1 : v.1 = 0 := by nlinarith [sq_nonneg v.1, sq_nonneg v.2]
      have a2 : v.2 = 0 := by nlinarith [sq_nonneg v.1, sq_nonneg v.2]
      exact Prod.ext a1 a2
    · rintro rfl
      simp [norm]
  have unit : ∀ v : Pt, norm v ≠ 0 → (v.1 / norm v) ^ 2 + (v.2 / norm v) ^ 2 = 1 := by
    intro v hv
    rw [div_pow, div_pow, ← add_div, ← norm_sq v, div_self (pow_ne_zero 2 hv)]
  have val : ∀ v w : Pt, norm v ≠ 0 → norm w ≠ 0 → angleDeg v w = some (rad2deg (Real.arccos
      (v.1 / norm v * (w.1 / norm w) + v.2 / norm v * (w.2 / norm w)))) ∧
      -1 ≤ v.1 / norm v * (w.1 / norm w) + v.2 / norm v * (w.2 / norm w) ∧
      v.1 / norm v * (w.1 / norm w) + v.2 / norm v * (w.2 / norm w) ≤ 1 := by
    intro v w hv hw
    have hb := dot_unit (unit v hv) (unit w hw)
    have hb' : -1 ≤ v.1 / norm v * (w.1 / norm w) + v.2 / norm v * (w.2 / norm w) ∧
      v.1 / norm v * (w.1 / norm w) + v.2 / norm v * (w.2 / norm w) ≤ 1 := by
      constructor <;> linarith [hb.1, hb.2]
    refine ⟨?_, hb'⟩
    simp only [angleDeg, normalize, if_neg hv, if_neg hw, Option.bind_eq_bind, Option.bind_some, dot]
    rw [arccos, if_pos hb']
    rfl
  by_cases hp : norm (p - c) = 0
  · have : ∀ w, angleDeg (p - c) w = none ∧ angleDeg w (p - c) = none := by
      intro w
      simp [angleDeg, normalize, hp]
    have hpc : p = c := sub_eq_zero.1 ((key _).1 hp)
    rw [getAngle, getAngle, (this _).1, (this _).2]
    simp [hpc]
  · by_cases hq : norm (q - c) = 0
    · have : ∀ w, angleDeg (q - c) w = none ∧ angleDeg w (q - c) = none := by
        intro w
        simp [angleDeg, normalize, hq]
      have hqc : q = c := sub_eq_zero.1 ((key _).1 hq)
      rw [getAngle, getAngle, (this _).1, (this _).2]
      simp [hqc]
    · obtain ⟨e, b1, b2⟩ := val _ _ hp hq
      obtain ⟨e', -, -⟩ := val _ _ hq hp
      rw [getAngle, getAngle, e, e']
      refine ⟨?_, ?_, ?_⟩
      · simp only [Option.isSome_some, true_iff]
        exact ⟨fun h => hp ((key _).2 (sub_eq_zero.2 h)), fun h => hq ((key _).2 (sub_eq_zero.2 h))⟩
      · rw [mul_comm ((q - c).1 / _), mul_comm ((q - c).2 / _)]
      · intro a ha
        cases ha
        refine ⟨?_, ?_, ?_⟩
        · unfold rad2deg
          have := Real.arccos_nonneg ((p - c).1 / norm (p - c) * ((q - c).1 / norm (q - c)) + (p - c).2 / norm (p - c) * ((q - c).2 / norm (q - c)))
          positivity
        · unfold rad2deg
          rw [div_le_iff₀ hpi]
          linarith [Real.arccos_le_pi ((p - c).1 / norm (p - c) * ((q - c).1 / norm (q - c)) + (p - c).2 / norm (p - c) * ((q - c).2 / norm (q - c)))]
        · rw [rad_rad2deg, Real.cos_arccos b1 b2]
          field_simp
          simp only [Prod.fst_sub, Prod.snd_sub]

/-- The angle between two vectors as an arc cosine -/
theorem angleDeg_eq {v w : Pt} {x : ℝ} (hv : norm v ≠ 0) (hw : norm w ≠ 0) (h : dot v w = x * (norm v * norm w)) (h1 : -1 ≤ x) (h2 : x ≤ 1) :
    angleDeg v w = some (rad2deg (Real.arccos x)) := by
  have e : dot (v.1 / norm v, v.2 / norm v) (w.1 / norm w, w.2 / norm w) = x := by
    have : dot (v.1 / norm v, v.2 / norm v) (w.1 / norm w, w.2 / norm w) = dot v w / (norm v * norm w) := by
      simp only [dot]
      field_simp
    rw [this, h]
    field_simp
  simp only [angleDeg, normalize, if_neg hv, if_neg hw, Option.bind_eq_bind, Option.bind_some]
  rw [e, arccos, if_pos ⟨h1, h2⟩]
  rfl

/-- One of the angles of three vectors that add up to zero with positive weights -/
theorem angleDeg_weighted {u v w : Pt} {r s t : ℝ} (hr : 0 < r) (hs : 0 < s) (hu : norm u ≠ 0) (hv : norm v ≠ 0)
    (h1 : r * u.1 + s * v.1 + t * w.1 = 0) (h2 : r * u.2 + s * v.2 + t * w.2 = 0)
    (a b c : ℝ) (ha : a = r * norm u) (hb : b = s * norm v) (hc : c = t * norm w) (m1 : c ≤ a + b) (m2 : a ≤ b + c) (m3 : b ≤ a + c) :
    angleDeg u v = some (rad2deg (Real.pi - Real.arccos ((a ^ 2 + b ^ 2 - c ^ 2) / (2 * a * b)))) := by
  have nu := norm_sq u
  have nv := norm_sq v
  have nw := norm_sq w
  have pu : 0 < norm u := lt_of_le_of_ne (norm_nonneg _) (Ne.symm hu)
  have pv : 0 < norm v := lt_of_le_of_ne (norm_nonneg _) (Ne.symm hv)
  have pa : 0 < a := by rw [ha]; positivity
  have pb : 0 < b := by rw [hb]; positivity
  obtain ⟨x1, x2⟩ := arg_mem pa pb m1 m2 m3
  have key : 2 * r * s * dot u v = c ^ 2 - a ^ 2 - b ^ 2 := by
    rw [ha, hb, hc]
    simp only [mul_pow, nu, nv, nw, dot]
    have e1 : t * w.1 = -(r * u.1 + s * v.1) := by linarith
    have e2 : t * w.2 = -(r * u.2 + s * v.2) := by linarith
    have e3 : t ^ 2 * (w.1 ^ 2 + w.2 ^ 2) = (t * w.1) ^ 2 + (t * w.2) ^ 2 := by ring
    rw [e3, e1, e2]
    ring
  rw [← Real.arccos_neg]
  refine angleDeg_eq hu hv ?_ (by linarith) (by linarith)
  have : dot u v = (c ^ 2 - a ^ 2 - b ^ 2) / (2 * r * s) := by
    rw [eq_div_iff (by positivity)]
    linarith
  rw [this]
  have e : norm u * norm v = a * b / (r * s) := by rw [ha, hb]; field_simp
  rw [e]
  field_simp
  ring

/-- One side of a triangle is no longer than the other two. -/
theorem triangle_of_zero {u v w : Pt} {r s t : ℝ} (hr : 0 ≤ r) (hs : 0 ≤ s)
    (h1 : r * u.1 + s * v.1 + t * w.1 = 0) (h2 : r * u.2 + s * v.2 + t * w.2 = 0) : t * norm w ≤ r * norm u + s * norm v := by
  have nu := norm_sq u
  have nv := norm_sq v
  have nw := norm_sq w
  have pu := norm_nonneg u
  have pv := norm_nonneg v
  have pw := norm_nonneg w
  have cs : dot u v ≤ norm u * norm v := by
    refine abs_le_of_sq_le_sq' ?_ (by positivity) |>.2
    rw [mul_pow, nu, nv]
    unfold dot
    nlinarith [sq_nonneg (u.1 * v.2 - u.2 * v.1)]
  refine abs_le_of_sq_le_sq' ?_ (by positivity) |>.2
  have e1 : t * w.1 = -(r * u.1 + s * v.1) := by linarith
  have e2 : t * w.2 = -(r * u.2 + s * v.2) := by linarith
  have e3 : (t * norm w) ^ 2 = (t * w.1) ^ 2 + (t * w.2) ^ 2 := by rw [mul_pow, nw]; ring
  rw [e3, e1, e2]
  have e4 : (r * norm u + s * norm v) ^ 2 = r ^ 2 * (u.1 ^ 2 + u.2 ^ 2) + s ^ 2 * (v.1 ^ 2 + v.2 ^ 2) + 2 * (r * s) * (norm u * norm v) := by
    rw [← nu, ← nv]; ring
  rw [e4]
  have := mul_le_mul_of_nonneg_left cs (mul_nonneg hr hs)
  unfold dot at this
  nlinarith

/-- **C80 (angles of a triple point).**  With intersections of every pair of phases each centre becomes a triple point; its branches are
the intersections closest to it, and if the centre lies strictly inside the triangle of the branches the three angles add up to 360
degrees. -/
theorem C80_angles (l p01 p12 p20 : List Pt) (h01 : p01 ≠ []) (h12 : p12 ≠ []) (h20 : p20 ≠ []) :
    ∃ result, triplePoints (.points l) p01 p12 p20 = .ok result ∧ result.map TriplePoint.center = l ∧
      ∀ t ∈ result, ∃ b0 ∈ p20, ∃ b1 ∈ p01, ∃ b2 ∈ p12, t.branches = [b0, b1, b2] ∧
        (∀ q ∈ p20, distSq b0 t.center ≤ distSq q t.center) ∧ (∀ q ∈ p01, distSq b1 t.center ≤ distSq q t.center) ∧
        (∀ q ∈ p12, distSq b2 t.center ≤ distSq q t.center) ∧
        ∀ r0 r1 r2 : ℝ, 0 < r0 → 0 < r1 → 0 < r2 → r0 + r1 + r2 = 1 → b0 ≠ t.center → b1 ≠ t.center → b2 ≠ t.center →
          r0 * b0.1 + r1 * b1.1 + r2 * b2.1 = t.center.1 → r0 * b0.2 + r1 * b1.2 + r2 * b2.2 = t.center.2 →
          ∃ a0 a1 a2, t.angles = [some a0, some a1, some a2] ∧ a0 + a1 + a2 = 360 := by
  choose f0 d0 e0 m0 v0 n0 using fun p => C80_closest p p20 h20
  choose f1 d1 e1 m1 v1 n1 using fun p => C80_closest p p01 h01
  choose f2 d2 e2 m2 v2 n2 using fun p => C80_closest p p12 h12
  refine ⟨l.map fun c => ⟨c, [f0 c, f1 c, f2 c], [getAngle c (f0 c) (f1 c), getAngle c (f1 c) (f2 c), getAngle c (f2 c) (f0 c)]⟩,
    ?_, ?_, ?_⟩
  · refine mapM_ok _ _ _ fun c _ => ?_
    simp only [e0, e1, e2, bind, Except.bind]
    rfl
  · rw [List.map_map]
    exact List.map_id _
  · intro t ht
    obtain ⟨c, -, rfl⟩ := List.mem_map.1 ht
    refine ⟨f0 c, m0 c, f1 c, m1 c, f2 c, m2 c, rfl, n0 c, n1 c, n2 c, ?_⟩
    intro r0 r1 r2 p0 p1 p2 hsum g0 g1 g2 hx hy
    simp only at g0 g1 g2 hx hy ⊢
    have pos : ∀ b : Pt, b ≠ c → 0 < norm (b - c) := by
      intro b hb
      refine lt_of_le_of_ne (norm_nonneg _) fun h => hb ?_
      have := norm_sq (b - c)
      rw [← h] at this
      simp only [Prod.fst_sub, Prod.snd_sub] at this
      have a1 : b.1 - c.1 = 0 := by nlinarith [sq_nonneg (b.1 - c.1), sq_nonneg (b.2 - c.2)]
      have a2 : b.2 - c.2 = 0 := by nlinarith [sq_nonneg (b.1 - c.1), sq_nonneg (b.2 - c.2)]
      exact Prod.ext (by linarith) (by linarith)
    have q0 := pos _ g0
    have q1 := pos _ g1
    have q2 := pos _ g2
    have z1 : r0 * (f0 c - c).1 + r1 * (f1 c - c).1 + r2 * (f2 c - c).1 = 0 := by
      simp only [Prod.fst_sub]
      linear_combination hx - c.1 * hsum
    have z2 : r0 * (f0 c - c).2 + r1 * (f1 c - c).2 + r2 * (f2 c - c).2 = 0 := by
      simp only [Prod.snd_sub]
      linear_combination hy - c.2 * hsum
    obtain ⟨a, ha⟩ : ∃ a, a = r0 * norm (f0 c - c) := ⟨_, rfl⟩
    obtain ⟨b, hb⟩ : ∃ a, a = r1 * norm (f1 c - c) := ⟨_, rfl⟩
    obtain ⟨d, hd⟩ : ∃ a, a = r2 * norm (f2 c - c) := ⟨_, rfl⟩
    have pa : 0 < a := by rw [ha]; positivity
    have pb : 0 < b := by rw [hb]; positivity
    have pd : 0 < d := by rw [hd]; positivity
    have t1 := triangle_of_zero p0.le p1.le z1 z2
    have t2 := triangle_of_zero (u := f1 c - c) (v := f2 c - c) (w := f0 c - c) (t := r0) p1.le p2.le (by linarith) (by linarith)
    have t3 := triangle_of_zero (u := f2 c - c) (v := f0 c - c) (w := f1 c - c) (t := r1) p2.le p0.le (by linarith) (by linarith)
    rw [← ha, ← hb, ← hd] at t1 t2 t3
    refine ⟨_, _, _, congrArg₂ List.cons (angleDeg_weighted p0 p1 q0.ne' q1.ne' z1 z2 a b d ha hb hd (by linarith) (by linarith) (by linarith))
      (congrArg₂ List.cons (angleDeg_weighted (w := f0 c - c) p1 p2 q1.ne' q2.ne' (by linarith) (by linarith) b d a hb hd ha (by linarith) (by linarith) (by linarith))
      (congrArg₂ List.cons (angleDeg_weighted (w := f1 c - c) p2 p0 q2.ne' q0.ne' (by linarith) (by linarith) d a b hd ha hb (by linarith) (by linarith) (by linarith)) rfl)), ?_⟩
    have hs := angle_sum pa pb pd (by linarith) (by linarith) (by linarith)
    have e1 : (b ^ 2 + d ^ 2 - a ^ 2) / (2 * b * d) = (d ^ 2 + b ^ 2 - a ^ 2) / (2 * d * b) := by ring
    have e2 : (d ^ 2 + a ^ 2 - b ^ 2) / (2 * d * a) = (a ^ 2 + d ^ 2 - b ^ 2) / (2 * a * d) := by ring
    rw [e1, e2]
    have hpi := Real.pi_ne_zero
    unfold rad2deg
    generalize Real.arccos _ = x at hs ⊢
    generalize Real.arccos _ = y at hs ⊢
    generalize Real.arccos _ = z at hs ⊢
    have : x + y + z = Real.pi := by linarith
    field_simp
    linarith

/-- The diagonals of a square -/
example : findIntersections [((0 : ℚ), (0 : ℚ)), (2, 2)] [(0, 2), (2, 0)] = ([num 1], [num 1]) := by
  have := C80_crossing ((0 : ℚ), (0 : ℚ)) (2, 2) (0, 2) (2, 0) (t := 1 / 2) (u := 1 / 2) (by constructor <;> norm_num)
    (by constructor <;> norm_num) (by unfold Spec.Transversal; norm_num) (by norm_num [Spec.at']) (by norm_num) (by norm_num) (by norm_num) (by norm_num)
  rw [this]
  norm_num [Spec.at']

/-- A point common to all pairs of phases -/
example : ∃ l, tripleCenters [(0, 0), (5, 5)] [(0, 0)] [(1, 0), (0, 0)] 0.8 = .ok (.points l) ∧ ((0, 0) : Pt) ∈ l := by
  obtain ⟨l, e, -, h⟩ := C80_triple_points [(0, 0), (5, 5)] [(0, 0)] [(1, 0), (0, 0)] 0.8 (by simp) (by simp) (by simp)
  exact ⟨l, e, h (by norm_num) (0, 0) (by simp) (by simp) (by simp)⟩

/-- Three branches of an equal-sided star: angles of 360 degrees in all -/
example : ∃ t a0 a1 a2, triplePoints (.points [(0, 0)]) [(1, -1)] [(-1, -1)] [(0, 1)] = .ok [t] ∧ t.angles = [some a0, some a1, some a2] ∧
    a0 + a1 + a2 = 360 := by
  obtain ⟨r, e, hc, h⟩ := C80_angles [((0 : ℝ), (0 : ℝ))] [(1, -1)] [(-1, -1)] [(0, 1)] (by simp) (by simp) (by simp)
  obtain ⟨t, rfl⟩ : ∃ t, r = [t] := List.length_eq_one_iff.1 (by rw [← List.length_map TriplePoint.center, hc]; rfl)
  simp only [List.map_cons, List.map_nil, List.cons.injEq, and_true] at hc
  obtain ⟨b0, m0, b1, m1, b2, m2, -, -, -, -, hr⟩ := h t (by simp)
  rw [List.mem_singleton] at m0 m1 m2
  obtain ⟨a0, a1, a2, ha, hs⟩ := hr (1 / 2) (1 / 4) (1 / 4) (by norm_num) (by norm_num) (by norm_num) (by norm_num)
    (by rw [m0, hc]; simp) (by rw [m1, hc]; simp) (by rw [m2, hc]; simp) (by rw [m0, m1, m2, hc]; norm_num) (by rw [m0, m1, m2, hc]; norm_num)
  exact ⟨t, a0, a1, a2, e, ha, hs⟩

end PostProcessing
end Lbm
