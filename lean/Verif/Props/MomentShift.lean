/-
C118: density offset, division by the density and velocity shift of the moment equations.
-/
import Verif.MomentShift
import Mathlib.Data.List.Nodup
import Mathlib.Data.Rat.Defs
import Mathlib.Algebra.Field.Rat
import Mathlib.Tactic.Ring
import Mathlib.Tactic.NormNum

namespace Lbm
namespace MomentShift

variable {S K : Type} [Field K] [DecidableEq S]

/-- Specification: an expression that does not contain any of the symbols. -/
def Free (xs : List S) (f : (S → K) → K) : Prop := ∀ σ x v, x ∈ xs → f (Function.update σ x v) = f σ

omit [Field K] in
theorem run_not_mem (L : List (Asg S K)) (σ : S → K) (x : S) (h : x ∉ L.map Asg.lhs) : run L σ x = σ x := by
  induction L generalizing σ with
  | nil => rfl
  | cons e L ih =>
    rw [List.map_cons, List.mem_cons, not_or] at h
    have : run (e :: L) σ = run L (Function.update σ e.lhs (e.rhs σ)) := rfl
    rw [this, ih _ h.2, Function.update_of_ne h.1]

omit [Field K] in
theorem run_mem (L : List (Asg S K)) (σ : S → K) (hn : (L.map Asg.lhs).Nodup) (hf : ∀ q ∈ L, Free (L.map Asg.lhs) q.rhs)
    (q : Asg S K) (hq : q ∈ L) : run L σ q.lhs = q.rhs σ := by
  induction L generalizing σ with
  | nil => cases hq
  | cons e L ih =>
    have e1 : run (e :: L) σ = run L (Function.update σ e.lhs (e.rhs σ)) := rfl
    rw [List.map_cons, List.nodup_cons] at hn
    rw [e1]
    rcases List.mem_cons.1 hq with rfl | hq'
    · rw [run_not_mem _ _ _ hn.1, Function.update_self]
    · rw [ih _ hn.2 (fun p hp σ x v hx => hf p (List.mem_cons_of_mem _ hp) σ x v (List.mem_cons_of_mem _ hx)) hq']
      exact hf q hq σ _ _ List.mem_cons_self

/-- The velocity equation that is written by the three functions. -/
def final (rho : S) (p : Asg S K × ((S → K) → K → K)) : Asg S K :=
  ⟨p.1.lhs, fun σ => p.1.rhs σ / σ rho + p.2 σ (σ rho)⟩

/-- C118. Density offset, division and shift, applied to the equations `rho = …, u_i = …, …` of a compressible method: the run
computes the density with the offset, the velocities from this density (with the shift of this density), and leaves the other
quantities. -/
theorem C118_pipeline (rho : S) (r : (S → K) → K) (vel rest : List (Asg S K)) (shift : List ((S → K) → K → K)) (offset : K)
    (hlen : shift.length = vel.length) (hn : (rho :: (vel ++ rest).map Asg.lhs).Nodup)
    (hf : ∀ q ∈ vel ++ rest, Free (rho :: (vel ++ rest).map Asg.lhs) q.rhs)
    (hs : ∀ s ∈ shift, ∀ d, Free (rho :: (vel ++ rest).map Asg.lhs) fun σ => s σ d) :
    ∃ a b out, addOffset offset (⟨rho, r⟩ :: (vel ++ rest)) = .ok a ∧ divideByRho vel.length a = .ok b ∧
      applyShift shift vel.length true false b = .ok out ∧ ∀ σ,
        run out σ rho = r σ + offset ∧
        (∀ p ∈ vel.zip shift, run out σ p.1.lhs = p.1.rhs σ / (r σ + offset) + p.2 σ (r σ + offset)) ∧
        ∀ q ∈ rest, run out σ q.lhs = q.rhs σ := by
  let L := (vel.zip shift).map (final rho) ++ rest
  have hout : applyShift shift vel.length true false
      ((⟨rho, fun σ => r σ + offset⟩ : Asg S K) :: (vel.map fun q => (⟨q.lhs, fun σ => q.rhs σ / σ rho⟩ : Asg S K)) ++ rest) =
      .ok ((⟨rho, fun σ => r σ + offset⟩ : Asg S K) :: L) := by
    simp only [applyShift, List.cons_append]
    rw [List.take_left' (by simp), List.drop_left' (by simp)]
    congr 3
    rw [List.zipWith_map_left, List.zipWith_map_right, List.zip, List.map_zipWith]
    rfl
  refine ⟨_, _, _, rfl, ?_, hout, fun σ => ?_⟩
  · simp only [divideByRho]
    rw [List.take_left' rfl, List.drop_left' rfl]
  have hlhs : L.map Asg.lhs = (vel ++ rest).map Asg.lhs := by
    have h1 : ((vel.zip shift).map (final rho)).map Asg.lhs = vel.map Asg.lhs := by
      rw [List.map_map]
      have : (Asg.lhs ∘ final rho : Asg S K × ((S → K) → K → K) → S) = Asg.lhs ∘ Prod.fst := rfl
      rw [this, ← List.map_map, List.map_fst_zip (le_of_eq hlen.symm)]
    rw [List.map_append, h1, List.map_append]
  rw [List.nodup_cons] at hn
  have hrho : rho ∉ L.map Asg.lhs := by rw [hlhs]; exact hn.1
  have hL : ∀ q ∈ L, Free (L.map Asg.lhs) q.rhs := by
    intro q hq σ x v hx
    have hx' : x ∈ (vel ++ rest).map Asg.lhs := by rw [← hlhs]; exact hx
    have hxr : rho ≠ x := fun h => hrho (h ▸ hx)
    rcases List.mem_append.1 hq with hq | hq
    · obtain ⟨p, hp, rfl⟩ := List.mem_map.1 hq
      have hp' := List.of_mem_zip (a := p.1) (b := p.2) hp
      simp only [final]
      rw [Function.update_of_ne hxr, hf p.1 (List.mem_append_left _ hp'.1) σ x v (List.mem_cons_of_mem _ hx')]
      exact congrArg _ (hs p.2 hp'.2 (σ rho) σ x v (List.mem_cons_of_mem _ hx'))
    · exact hf q (List.mem_append_right _ hq) σ x v (List.mem_cons_of_mem _ hx')
  set σ' := Function.update σ rho (r σ + offset) with hσ'
  have hrun : run ((⟨rho, fun σ => r σ + offset⟩ : Asg S K) :: L) σ = run L σ' := rfl
  have hnL : (L.map Asg.lhs).Nodup := by rw [hlhs]; exact hn.2
  have hσr : σ' rho = r σ + offset := by rw [hσ', Function.update_self]
  rw [hrun]
  refine ⟨by rw [run_not_mem _ _ _ hrho, hσr], fun p hp => ?_, fun q hq => ?_⟩
  · have hp' := List.of_mem_zip (a := p.1) (b := p.2) hp
    have := run_mem L σ' hnL hL (final rho p) (List.mem_append_left _ (List.mem_map_of_mem hp))
    have e : (final rho p).lhs = p.1.lhs := rfl
    rw [e] at this
    rw [this]
    simp only [final]
    rw [hσr, hσ', hf p.1 (List.mem_append_left _ hp'.1) σ rho _ List.mem_cons_self]
    exact congrArg _ (hs p.2 hp'.2 (r σ + offset) σ rho _ List.mem_cons_self)
  · rw [run_mem L σ' hnL hL q (List.mem_append_right _ hq), hσ', hf q (List.mem_append_right _ hq) σ rho _ List.mem_cons_self]

omit [DecidableEq S] in
/-- C118. The offset may be added before or after the division, the equations are the same. -/
theorem C118_commute (offset : K) (dim : ℕ) (es : List (Asg S K)) :
    (addOffset offset es).bind (divideByRho dim) = (divideByRho dim es).bind (addOffset offset) := by
  cases es <;> rfl

omit [DecidableEq S] in
/-- C118. A shift is undone by the reverse shift. -/
theorem C118_reverse (shift : List ((S → K) → K → K)) (dim : ℕ) (c : Bool) (es : List (Asg S K)) (hne : es ≠ [])
    (hlen : (es.tail.take dim).length ≤ shift.length) (hdim : dim ≤ es.tail.length) :
    (applyShift shift dim c false es).bind (applyShift shift dim c true) = .ok es := by
  cases es with
  | nil => exact absurd rfl hne
  | cons e es =>
    simp only [List.tail_cons] at hlen hdim
    simp only [applyShift, Except.bind, List.cons_append]
    have h1 : (es.take dim).length = dim := by rw [List.length_take]; omega
    rw [h1] at hlen
    have hz : ∀ l : List ((S → K) → K), dim ≤ l.length →
        (List.zipWith (fun (q : Asg S K) o => (⟨q.lhs, fun σ => q.rhs σ + o σ⟩ : Asg S K)) (es.take dim) l).length = dim := by
      intro l hl
      rw [List.length_zipWith, h1]; omega
    rw [List.take_left' (hz _ (by simpa using hlen)), List.drop_left' (hz _ (by simpa using hlen))]
    congr 2
    conv_rhs => rw [← List.take_append_drop dim es]
    congr 1
    apply List.ext_getElem
    · rw [List.length_zipWith, hz _ (by simpa using hlen), List.length_map, h1]; omega
    · intro i _ _
      simp only [List.getElem_zipWith, List.getElem_map, Bool.false_eq_true, if_false, if_true]
      congr 1
      funext σ
      exact add_neg_cancel_right _ _

omit [DecidableEq S] in
/-- C118. A shift with fewer components than the dimension removes velocity equations without an error. -/
theorem C118_lost (shift : List ((S → K) → K → K)) (dim : ℕ) (c rev : Bool) (e : Asg S K) (es : List (Asg S K)) (hd : dim ≤ es.length) :
    ∃ out, applyShift shift dim c rev (e :: es) = .ok out ∧ out.length + (dim - shift.length) = (e :: es).length := by
  refine ⟨_, rfl, ?_⟩
  simp only [List.length_append, List.length_cons, List.length_zipWith, List.length_take, List.length_map, List.length_drop]
  omega

/-- Concrete case: populations `f0, f1`, a density and two velocities, a force of 1/2 over the density as the shift. -/
example : let vel : List (Asg String ℚ) := [⟨"u0", fun σ => σ "f1"⟩, ⟨"u1", fun σ => σ "f1" - σ "f0"⟩]
    let shift : List ((String → ℚ) → ℚ → ℚ) := [fun σ d => σ "F0" / (2 * d), fun σ d => σ "F1" / (2 * d)]
    shift.length = vel.length ∧ ("rho" :: (vel ++ []).map Asg.lhs).Nodup ∧
    (∀ q ∈ vel ++ [], Free ("rho" :: (vel ++ []).map Asg.lhs) q.rhs) ∧
    ∀ s ∈ shift, ∀ d, Free ("rho" :: (vel ++ []).map Asg.lhs) fun σ => s σ d := by
  refine ⟨rfl, by decide, ?_, ?_⟩
  · intro q hq σ x v hx
    simp at hq hx
    rcases hq with rfl | rfl <;> rcases hx with rfl | rfl | rfl <;> simp [Function.update]
  · intro s hs d σ x v hx
    simp at hs hx
    rcases hs with rfl | rfl <;> rcases hx with rfl | rfl | rfl <;> simp [Function.update]

end MomentShift
end Lbm
