/-
C20: lattice weights and the discrete Maxwellian.
-/
import Verif.Maxwellian
import Mathlib.Algebra.BigOperators.Fin
import Mathlib.Algebra.BigOperators.Ring.Finset
import Mathlib.Tactic.FieldSimp
import Mathlib.Tactic.LinearCombination
import Mathlib.Tactic.Ring
import Mathlib.Tactic.NormNum
import Mathlib.Tactic.IntervalCases
import Mathlib.Algebra.Order.Ring.Rat

namespace Lbm

namespace Spec

/-- scalar product -/
def dot {K : Type} [Field K] {D : ℕ} (x y : Fin D → K) : K := ∑ a, x a * y a

/-- Kronecker delta -/
def δ {K : Type} [Field K] {D : ℕ} (a b : Fin D) : K := if a = b then 1 else 0

/-- weighted velocity tensors agree with those of the Gaussian of variance `cs` up to third order -/
structure Isotropic3 {K : Type} [Field K] {Q D : ℕ} (c : Fin Q → Fin D → K) (w : Fin Q → K) (cs : K) : Prop where
  m0 : ∑ q, w q = 1
  m1 : ∀ a, ∑ q, w q * c q a = 0
  m2 : ∀ a b, ∑ q, w q * c q a * c q b = cs * δ a b
  m3 : ∀ a b d, ∑ q, w q * c q a * c q b * c q d = 0

/-- the same up to fifth order -/
structure Isotropic5 {K : Type} [Field K] {Q D : ℕ} (c : Fin Q → Fin D → K) (w : Fin Q → K) (cs : K) : Prop
    extends Isotropic3 c w cs where
  m4 : ∀ a b d e, ∑ q, w q * c q a * c q b * c q d * c q e = cs ^ 2 * (δ a b * δ d e + δ a d * δ b e + δ a e * δ b d)
  m5 : ∀ a b d e f, ∑ q, w q * c q a * c q b * c q d * c q e * c q f = 0

/-- velocity `q` of a stencil, component `a` -/
def vel {K : Type} [Field K] (st : List (List ℤ)) (D : ℕ) (q : Fin st.length) (a : Fin D) : K :=
  ((st.get q).getD a 0 : ℤ)

end Spec

open Spec

/-! ### Contractions -/

section Contract
variable {K : Type} [Field K] {Q D : ℕ} {c : Fin Q → Fin D → K} {w : Fin Q → K} {cs : K}

theorem contract_pull (g : Fin Q → K) (x : Fin D → K) : ∑ q, g q * dot (c q) x = ∑ a, x a * ∑ q, g q * c q a := by
  simp only [dot, Finset.mul_sum]
  rw [Finset.sum_comm]
  exact Finset.sum_congr rfl fun a _ => Finset.sum_congr rfl fun q _ => by ring

theorem sum_δ (x : Fin D → K) (a : Fin D) : ∑ b, x b * δ a b = x a := by simp [δ]

theorem sum_δ' (x : Fin D → K) (a : Fin D) : ∑ b, x b * δ b a = x a := by simp [δ]

theorem Spec.Isotropic3.c1 (h : Isotropic3 c w cs) (x : Fin D → K) : ∑ q, w q * dot (c q) x = 0 := by
  rw [contract_pull]; simp [h.m1]

theorem Spec.Isotropic3.c2 (h : Isotropic3 c w cs) (x y : Fin D → K) :
    ∑ q, w q * dot (c q) x * dot (c q) y = cs * dot x y := by
  rw [contract_pull]
  have : ∀ b, ∑ q, w q * dot (c q) x * c q b = cs * x b := fun b => by
    have e : ∀ q, w q * dot (c q) x * c q b = (w q * c q b) * dot (c q) x := fun q => by ring
    simp only [e, contract_pull, h.m2]
    have e2 : ∀ a, x a * (cs * δ b a) = cs * (x a * δ b a) := fun a => by ring
    simp only [e2, ← Finset.mul_sum, sum_δ]
  simp only [this]
  simp only [dot, Finset.mul_sum]
  exact Finset.sum_congr rfl fun a _ => by ring

theorem Spec.Isotropic3.c3 (h : Isotropic3 c w cs) (x y z : Fin D → K) :
    ∑ q, w q * dot (c q) x * dot (c q) y * dot (c q) z = 0 := by
  rw [contract_pull]
  refine Finset.sum_eq_zero fun a _ => ?_
  have e : ∀ q, w q * dot (c q) x * dot (c q) y * c q a = (w q * dot (c q) x * c q a) * dot (c q) y := fun q => by ring
  simp only [e, contract_pull]
  rw [Finset.sum_eq_zero, mul_zero]
  intro b _
  have e : ∀ q, w q * dot (c q) x * c q a * c q b = (w q * c q a * c q b) * dot (c q) x := fun q => by ring
  simp only [e, contract_pull, h.m3]
  simp

theorem Spec.Isotropic5.c4 (h : Isotropic5 c w cs) (x y z t : Fin D → K) :
    ∑ q, w q * dot (c q) x * dot (c q) y * dot (c q) z * dot (c q) t =
      cs ^ 2 * (dot x y * dot z t + dot x z * dot y t + dot x t * dot y z) := by
  have k1 : ∀ b d e, ∑ q, w q * dot (c q) x * c q b * c q d * c q e =
      cs ^ 2 * (x b * δ d e + x d * δ b e + x e * δ b d) := fun b d e => by
    have e1 : ∀ q, w q * dot (c q) x * c q b * c q d * c q e = (w q * c q b * c q d * c q e) * dot (c q) x :=
      fun q => by ring
    have e2 : ∀ a, ∑ q, w q * c q b * c q d * c q e * c q a = ∑ q, w q * c q a * c q b * c q d * c q e :=
      fun a => Finset.sum_congr rfl fun q _ => by ring
    simp only [e1, contract_pull, e2, h.m4]
    have e3 : ∀ a, x a * (cs ^ 2 * (δ a b * δ d e + δ a d * δ b e + δ a e * δ b d)) =
        cs ^ 2 * ((x a * δ a b) * δ d e) + cs ^ 2 * ((x a * δ a d) * δ b e) + cs ^ 2 * ((x a * δ a e) * δ b d) :=
      fun a => by ring
    simp only [e3, Finset.sum_add_distrib, ← Finset.mul_sum, ← Finset.sum_mul, sum_δ']
    ring
  have k2 : ∀ d e, ∑ q, w q * dot (c q) x * dot (c q) y * c q d * c q e =
      cs ^ 2 * (dot x y * δ d e + x d * y e + x e * y d) := fun d e => by
    have e1 : ∀ q, w q * dot (c q) x * dot (c q) y * c q d * c q e =
        (w q * dot (c q) x * c q d * c q e) * dot (c q) y := fun q => by ring
    have e2 : ∀ b, ∑ q, w q * dot (c q) x * c q d * c q e * c q b =
        ∑ q, w q * dot (c q) x * c q b * c q d * c q e := fun a => Finset.sum_congr rfl fun q _ => by ring
    simp only [e1, contract_pull, e2, k1]
    have e3 : ∀ b, y b * (cs ^ 2 * (x b * δ d e + x d * δ b e + x e * δ b d)) =
        cs ^ 2 * ((x b * y b) * δ d e) + cs ^ 2 * (x d * (y b * δ b e)) + cs ^ 2 * (x e * (y b * δ b d)) :=
      fun a => by ring
    simp only [e3, Finset.sum_add_distrib, ← Finset.mul_sum, ← Finset.sum_mul, sum_δ', dot]
    ring
  have k3 : ∀ e, ∑ q, w q * dot (c q) x * dot (c q) y * dot (c q) z * c q e =
      cs ^ 2 * (dot x y * z e + dot x z * y e + x e * dot y z) := fun e => by
    have e1 : ∀ q, w q * dot (c q) x * dot (c q) y * dot (c q) z * c q e =
        (w q * dot (c q) x * dot (c q) y * c q e) * dot (c q) z := fun q => by ring
    have e2 : ∀ d, ∑ q, w q * dot (c q) x * dot (c q) y * c q e * c q d =
        ∑ q, w q * dot (c q) x * dot (c q) y * c q d * c q e := fun a => Finset.sum_congr rfl fun q _ => by ring
    simp only [e1, contract_pull, e2, k2]
    have e3 : ∀ d, z d * (cs ^ 2 * (dot x y * δ d e + x d * y e + x e * y d)) =
        cs ^ 2 * (dot x y * (z d * δ d e)) + cs ^ 2 * ((x d * z d) * y e) + cs ^ 2 * (x e * (y d * z d)) :=
      fun a => by ring
    simp only [e3, Finset.sum_add_distrib, ← Finset.mul_sum, ← Finset.sum_mul, sum_δ']
    simp only [dot]
    ring
  rw [contract_pull]
  simp only [k3]
  have e3 : ∀ e, t e * (cs ^ 2 * (dot x y * z e + dot x z * y e + x e * dot y z)) =
      cs ^ 2 * (dot x y * (z e * t e)) + cs ^ 2 * (dot x z * (y e * t e)) + cs ^ 2 * ((x e * t e) * dot y z) :=
    fun a => by ring
  simp only [e3, Finset.sum_add_distrib, ← Finset.mul_sum, ← Finset.sum_mul]
  show cs ^ 2 * (dot x y * dot z t) + cs ^ 2 * (dot x z * dot y t) + cs ^ 2 * (dot x t * dot y z) = _
  ring

theorem Spec.Isotropic5.c5 (h : Isotropic5 c w cs) (x y z t s : Fin D → K) :
    ∑ q, w q * dot (c q) x * dot (c q) y * dot (c q) z * dot (c q) t * dot (c q) s = 0 := by
  rw [contract_pull]
  refine Finset.sum_eq_zero fun a _ => ?_
  have e : ∀ q, w q * dot (c q) x * dot (c q) y * dot (c q) z * dot (c q) t * c q a =
      (w q * dot (c q) x * dot (c q) y * dot (c q) z * c q a) * dot (c q) t := fun q => by ring
  simp only [e, contract_pull]
  rw [Finset.sum_eq_zero, mul_zero]
  intro b _
  have e : ∀ q, w q * dot (c q) x * dot (c q) y * dot (c q) z * c q a * c q b =
      (w q * dot (c q) x * dot (c q) y * c q a * c q b) * dot (c q) z := fun q => by ring
  simp only [e, contract_pull]
  rw [Finset.sum_eq_zero, mul_zero]
  intro d _
  have e : ∀ q, w q * dot (c q) x * dot (c q) y * c q a * c q b * c q d =
      (w q * dot (c q) x * c q a * c q b * c q d) * dot (c q) y := fun q => by ring
  simp only [e, contract_pull]
  rw [Finset.sum_eq_zero, mul_zero]
  intro f _
  have e : ∀ q, w q * dot (c q) x * c q a * c q b * c q d * c q f =
      (w q * c q a * c q b * c q d * c q f) * dot (c q) x := fun q => by ring
  simp only [e, contract_pull, h.m5]
  simp

/-- `c q a` as a contraction -/
theorem comp_eq_dot (q : Fin Q) (a : Fin D) : c q a = dot (c q) (fun b => δ a b) := (sum_δ (c q) a).symm

theorem dot_δ (x : Fin D → K) (a : Fin D) : dot (fun b => δ a b) x = x a := by
  simp only [dot]; rw [← sum_δ x a]; exact Finset.sum_congr rfl fun b _ => by ring

theorem dot_δδ (a b : Fin D) : dot (fun d => (δ a d : K)) (fun d => δ b d) = δ a b := by
  rw [dot_δ]; simp [δ, eq_comm]

end Contract

/-! ### The weights

Checked over the tables with the integers `216 w`. -/

/-- `Σ_q (216 w_q) Π_{a ∈ idx} c_{q,a} = t` -/
def tensorOk (st : List (List ℤ)) (iw : List ℤ) (idx : List ℕ) (t : ℤ) : Bool :=
  (List.zip iw st).foldl (fun s p => s + p.1 * (idx.map fun a => p.2.getD a 0).prod) 0 == t

def intδ (a b : ℕ) : ℤ := if a = b then 1 else 0

def iso3Ok (st : List (List ℤ)) (iw : List ℤ) : Bool :=
  let R := List.range (st.headD []).length
  tensorOk st iw [] 216 && R.all fun a => tensorOk st iw [a] 0 && R.all fun b =>
    tensorOk st iw [a, b] (72 * intδ a b) && R.all fun d => tensorOk st iw [a, b, d] 0

def iso5Ok (st : List (List ℤ)) (iw : List ℤ) : Bool :=
  let R := List.range (st.headD []).length
  R.all fun a => R.all fun b => R.all fun d => R.all fun e =>
    tensorOk st iw [a, b, d, e] (24 * (intδ a b * intδ d e + intδ a d * intδ b e + intδ a e * intδ b d)) &&
    R.all fun f => tensorOk st iw [a, b, d, e, f] 0

def intWeights (ws : List ℚ) : List ℤ := ws.map fun w => (216 * w).num

theorem weights_ok : ∀ e ∈ Tables.predefined, ∀ ws ∈ getWeights e.2.2,
    ws.length = e.2.2.length ∧ ws = (intWeights ws).map (fun i : ℤ => (i : ℚ) / 216) ∧
    iso3Ok e.2.2 (intWeights ws) = true ∧ (e.2.2.length ≠ 7 → iso5Ok e.2.2 (intWeights ws) = true) := by
  have key : ∀ e ∈ Tables.predefined, (match getWeights e.2.2 with
      | none => true
      | some ws => (ws.length == e.2.2.length) && (ws == (intWeights ws).map (fun i : ℤ => (i : ℚ) / 216)) &&
        iso3Ok e.2.2 (intWeights ws) && (e.2.2.length == 7 || iso5Ok e.2.2 (intWeights ws))) = true := by
    decide +kernel
  intro e he ws hws
  have := key e he
  rw [Option.mem_def.1 hws] at this
  simp only [Bool.and_eq_true, beq_iff_eq, Bool.or_eq_true] at this
  exact ⟨this.1.1.1, this.1.1.2, this.1.2, fun h => this.2.resolve_left h⟩

theorem foldl_zip_sum {α β M : Type} [AddCommMonoid M] (l : List α) (k : List β) (g : α → β → M) (a0 : α)
    (h : l.length = k.length) : ∀ z : M, (List.zip l k).foldl (fun s p => s + g p.1 p.2) z =
      z + ∑ q : Fin k.length, g (l.getD q a0) (k.get q) := by
  induction k generalizing l with
  | nil => intro z; simp
  | cons b k ih =>
    cases l with
    | nil => simp at h
    | cons a l =>
      intro z
      rw [List.zip_cons_cons, List.foldl_cons, ih l (by simpa using h)]
      have : ∑ q : Fin (b :: k).length, g ((a :: l).getD q a0) ((b :: k).get q) =
          g a b + ∑ q : Fin k.length, g (l.getD q a0) (k.get q) := Fin.sum_univ_succ _
      rw [this, add_assoc]

/-- the weights as a vector -/
def weightVec {K : Type} [Field K] (st : List (List ℤ)) (ws : List ℚ) (q : Fin st.length) : K := ((ws.getD q 0 : ℚ) : K)

theorem tensor_sum {K : Type} [Field K] [CharZero K] {st : List (List ℤ)} {ws : List ℚ} (hl : ws.length = st.length)
    (hw : ws = (intWeights ws).map (fun i : ℤ => (i : ℚ) / 216))
    {idx : List ℕ} {t : ℤ} (h : tensorOk st (intWeights ws) idx t = true) :
    ∑ q : Fin st.length, weightVec st ws q * (idx.map fun a => (((st.get q).getD a 0 : ℤ) : K)).prod =
      (t : K) / 216 := by
  have h' := beq_iff_eq.1 h
  have hli : (intWeights ws).length = st.length := by rw [intWeights, List.length_map, hl]
  rw [foldl_zip_sum (intWeights ws) st (fun w c => w * (idx.map fun a => c.getD a 0).prod) 0 hli, zero_add] at h'
  rw [← h', Int.cast_sum, div_eq_mul_inv, Finset.sum_mul]
  refine Finset.sum_congr rfl fun q _ => ?_
  have hq : q.val < (intWeights ws).length := by rw [hli]; exact q.isLt
  have hwq : ws.getD q 0 = ((intWeights ws).getD q 0 : ℚ) / 216 := by
    conv_lhs => rw [hw]
    rw [List.getD_eq_getElem?_getD, List.getD_eq_getElem?_getD, List.getElem?_map, List.getElem?_eq_getElem hq]
    simp
  have hp : ∀ l : List ℕ, ((l.map fun a => (st.get q).getD a 0).prod : ℤ) =
      ((l.map fun a => (((st.get q).getD a 0 : ℤ) : K)).prod : K) := by
    intro l
    induction l with
    | nil => simp
    | cons a l ih => simp only [List.map_cons, List.prod_cons, Int.cast_mul, ih]
  rw [weightVec, hwq, Int.cast_mul, hp]
  push_cast
  field_simp

theorem cast_δ {K : Type} [Field K] {D : ℕ} (a b : Fin D) : ((intδ a b : ℤ) : K) = δ a b := by
  unfold intδ δ
  by_cases h : a = b
  · simp [h]
  · have : a.val ≠ b.val := fun h' => h (Fin.ext h')
    simp [h, this]

theorem iso3_of_ok {K : Type} [Field K] [CharZero K] {st : List (List ℤ)} {ws : List ℚ} (hl : ws.length = st.length)
    (hw : ws = (intWeights ws).map (fun i : ℤ => (i : ℚ) / 216)) (h : iso3Ok st (intWeights ws) = true) :
    Isotropic3 (vel (K := K) st (st.headD []).length) (weightVec st ws) (1 / 3) := by
  simp only [iso3Ok, Bool.and_eq_true, List.all_eq_true, List.mem_range] at h
  obtain ⟨h0, h1⟩ := h
  refine ⟨?_, fun a => ?_, fun a b => ?_, fun a b d => ?_⟩
  · have := tensor_sum (K := K) hl hw h0
    simpa using this
  · have := tensor_sum (K := K) hl hw (h1 a a.isLt).1
    simpa [vel] using this
  · have := tensor_sum (K := K) hl hw ((h1 a a.isLt).2 b b.isLt).1
    have e : ((72 * intδ a b : ℤ) : K) / 216 = 1 / 3 * δ a b := by
      rw [Int.cast_mul, cast_δ]; push_cast; ring
    rw [e] at this
    rw [← this]
    refine Finset.sum_congr rfl fun q _ => ?_
    simp only [vel, List.map_cons, List.map_nil, List.prod_cons, List.prod_nil]; ring
  · have := tensor_sum (K := K) hl hw (((h1 a a.isLt).2 b b.isLt).2 d d.isLt)
    rw [Int.cast_zero, zero_div] at this
    rw [← this]
    refine Finset.sum_congr rfl fun q _ => ?_
    simp only [vel, List.map_cons, List.map_nil, List.prod_cons, List.prod_nil]; ring

theorem iso5_of_ok {K : Type} [Field K] [CharZero K] {st : List (List ℤ)} {ws : List ℚ} (hl : ws.length = st.length)
    (hw : ws = (intWeights ws).map (fun i : ℤ => (i : ℚ) / 216)) (h : iso3Ok st (intWeights ws) = true)
    (h5 : iso5Ok st (intWeights ws) = true) :
    Isotropic5 (vel (K := K) st (st.headD []).length) (weightVec st ws) (1 / 3) := by
  refine { iso3_of_ok hl hw h with m4 := fun a b d e => ?_, m5 := fun a b d e f => ?_ }
  all_goals
    simp only [iso5Ok, Bool.and_eq_true, List.all_eq_true, List.mem_range] at h5
    have h6 := h5 a a.isLt b b.isLt d d.isLt e e.isLt
  · have := tensor_sum (K := K) hl hw h6.1
    have e' : ((24 * (intδ a b * intδ d e + intδ a d * intδ b e + intδ a e * intδ b d) : ℤ) : K) / 216 =
        (1 / 3) ^ 2 * (δ a b * δ d e + δ a d * δ b e + δ a e * δ b d) := by
      push_cast [cast_δ]; ring
    rw [e'] at this
    rw [← this]
    refine Finset.sum_congr rfl fun q _ => ?_
    simp only [vel, List.map_cons, List.map_nil, List.prod_cons, List.prod_nil]; ring
  · have := tensor_sum (K := K) hl hw (h6.2 f f.isLt)
    rw [Int.cast_zero, zero_div] at this
    rw [← this]
    refine Finset.sum_congr rfl fun q _ => ?_
    simp only [vel, List.map_cons, List.map_nil, List.prod_cons, List.prod_nil]; ring

/-- C20: the weights of every predefined stencil that has weights are isotropic of third order with squared speed of
sound 1/3, and of fifth order except on D3Q7. -/
theorem C20_weights_isotropic {K : Type} [Field K] [CharZero K] : ∀ e ∈ Tables.predefined, ∀ ws ∈ getWeights e.2.2,
    ws.length = e.2.2.length ∧
    Isotropic3 (vel (K := K) e.2.2 (e.2.2.headD []).length) (weightVec e.2.2 ws) (1 / 3) ∧
    (e.2.2.length ≠ 7 → Isotropic5 (vel (K := K) e.2.2 (e.2.2.headD []).length) (weightVec e.2.2 ws) (1 / 3)) := by
  intro e he ws hws
  obtain ⟨hl, hw, h3, h5⟩ := weights_ok e he ws hws
  exact ⟨hl, iso3_of_ok hl hw h3, fun h => iso5_of_ok hl hw h3 (h5 h)⟩

/-- C20: which stencils have weights, and elementary facts about them: non-negative, positive except for the rest
velocity of D3Q7, equal for opposite velocities. -/
theorem C20_weights_elementary : ∀ e ∈ Tables.predefined,
    ((getWeights e.2.2).isSome ↔ e.1 ∉ ["D2V17", "D2V37"]) ∧
    ∀ ws ∈ getWeights e.2.2, (∀ w ∈ ws, 0 ≤ w) ∧
      (e.2.2.length ≠ 7 → ∀ w ∈ ws, 0 < w) ∧ (e.2.2.length = 7 → (0 : ℚ) ∈ ws) ∧
      ∀ i < ws.length, ∀ j < ws.length, (e.2.2.getD i []).map (fun x => -x) = e.2.2.getD j [] →
        ws.getD i 0 = ws.getD j 0 := by
  have key : ∀ e ∈ Tables.predefined, ((getWeights e.2.2).isSome ↔ e.1 ∉ ["D2V17", "D2V37"]) ∧
      ((getWeights e.2.2).all fun ws => decide ((∀ w ∈ ws, 0 ≤ w) ∧
      (e.2.2.length ≠ 7 → ∀ w ∈ ws, 0 < w) ∧ (e.2.2.length = 7 → (0 : ℚ) ∈ ws) ∧
      ∀ i < ws.length, ∀ j < ws.length, (e.2.2.getD i []).map (fun x => -x) = e.2.2.getD j [] →
        ws.getD i 0 = ws.getD j 0)) = true := by decide +kernel
  intro e he
  refine ⟨(key e he).1, fun ws hws => ?_⟩
  have := (key e he).2
  rw [Option.mem_def.1 hws] at this
  simpa only [Option.all_some, decide_eq_true_eq] using this

/-- C20: the D3Q7 weights are not isotropic of fourth order: `Σ w c_x² c_y² = 0` instead of 1/9. -/
theorem C20_D3Q7_not_fourth_order : ∃ e ∈ Tables.predefined, e.1 = "D3Q7" ∧ ∃ ws ∈ getWeights e.2.2,
    ∑ q, weightVec (K := ℚ) e.2.2 ws q * vel e.2.2 3 q 0 * vel e.2.2 3 q 0 * vel e.2.2 3 q 1 * vel e.2.2 3 q 1 = 0 := by
  refine ⟨("D3Q7", "walberla", Tables.D3Q7_walberla), by decide +kernel, rfl, ?_⟩
  refine ⟨[0, 1/6, 1/6, 1/6, 1/6, 1/6, 1/6], by decide +kernel, by decide +kernel⟩

end Lbm
