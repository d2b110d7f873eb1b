/-
Model of `gram_schmidt` (`moments.py:469-509`).
-/
import Verif.StencilCtor
import Mathlib.LinearAlgebra.Span.Basic
import Mathlib.Algebra.BigOperators.Ring.Finset
import Mathlib.Algebra.BigOperators.GroupWithZero.Action
import Mathlib.Algebra.BigOperators.Pi
import Mathlib.Algebra.Module.Pi
import Mathlib.Tactic.Linarith
import Mathlib.Tactic.Ring
import Mathlib.Algebra.Order.BigOperators.Ring.Finset
import Mathlib.Algebra.Order.Field.Basic

set_option linter.unusedSectionVars false

namespace Lbm

variable {K P : Type} [Field K] [DecidableEq K] [AddCommGroup P] [Module K P] {Q : ℕ}

/-- `a.dot(weights * b)` with `weights = sp.diag(*w)` (`moments.py:482-486, 499`); no weights means `w = 1`. -/
def dotW (w a b : Fin Q → K) : K := ∑ i, a i * (w i * b i)

/-- The inner loop (`moments.py:497-505`): `current_element` and `moments[i]` after subtracting the overlap with every
previous orthogonalised vector. Each entry of the list is (`orthogonalized_vectors[j]`, `moments[j]`). The overlap is
computed with the already reduced `current_element`, as in the code. -/
def gsStep (w : Fin Q → K) : (Fin Q → K) × P → List ((Fin Q → K) × P) → Except PyErr ((Fin Q → K) × P)
  | cur, [] => .ok cur
  | cur, p :: ps =>
    let denominator := dotW w p.1 p.1
    if denominator = 0 then .error .valueError
    else
      let overlap := dotW w cur.1 p.1 / denominator
      gsStep w (cur.1 - overlap • p.1, cur.2 - overlap • p.2) ps

/-- The outer loop (`moments.py:495-506`); `ev` maps a moment to its column of the transposed `moment_matrix`. -/
def gsLoop (ev : P →ₗ[K] (Fin Q → K)) (w : Fin Q → K) :
    List P → List ((Fin Q → K) × P) → Except PyErr (List ((Fin Q → K) × P))
  | [], done => .ok done
  | m :: ms, done => do
    let c ← gsStep w (ev m, m) done
    gsLoop ev w ms (done ++ [c])

/-- `gram_schmidt(moments, stencil, weights)` (`moments.py:469-509`). Moments are elements of any vector space `P` with
a linear evaluation on the stencil (polynomials in the source; `moment_matrix` is linear in the moment). An empty list of
moments makes `moments[0]` an `IndexError`. -/
def gramSchmidt (ev : P →ₗ[K] (Fin Q → K)) (w : Fin Q → K) (ms : List P) : Except PyErr (List P) :=
  if ms = [] then .error .indexError
  else (gsLoop ev w ms []).map fun l => l.map Prod.snd

/-! ### Helper lemmas -/

theorem dotW_sub (w a b c : Fin Q → K) : dotW w (a - b) c = dotW w a c - dotW w b c := by
  simp [dotW, sub_mul, Finset.sum_sub_distrib]

theorem dotW_add (w a b c : Fin Q → K) : dotW w (a + b) c = dotW w a c + dotW w b c := by
  simp [dotW, add_mul, Finset.sum_add_distrib]

theorem dotW_smul (w a c : Fin Q → K) (k : K) : dotW w (k • a) c = k * dotW w a c := by
  simp [dotW, Finset.mul_sum, mul_assoc]

theorem dotW_comm (w a b : Fin Q → K) : dotW w a b = dotW w b a := by
  unfold dotW; refine Finset.sum_congr rfl fun i _ => ?_; ring

theorem dotW_zero (w c : Fin Q → K) : dotW w 0 c = 0 := by simp [dotW]

theorem gsStep_error {w : Fin Q → K} {ps : List ((Fin Q → K) × P)} {cur : (Fin Q → K) × P} {e : PyErr} :
    gsStep w cur ps = .error e ↔ e = .valueError ∧ ∃ p ∈ ps, dotW w p.1 p.1 = 0 := by
  induction ps generalizing cur with
  | nil => simp [gsStep]
  | cons p ps ih =>
    unfold gsStep
    by_cases h : dotW w p.1 p.1 = 0
    · simp [h, eq_comm]
    · simp [h, ih]

theorem gsStep_dot {w : Fin Q → K} {ps : List ((Fin Q → K) × P)} {cur c : (Fin Q → K) × P}
    (h : gsStep w cur ps = .ok c) (x : Fin Q → K) (hx : ∀ p ∈ ps, dotW w p.1 x = 0) :
    dotW w c.1 x = dotW w cur.1 x := by
  induction ps generalizing cur with
  | nil => simp only [gsStep, Except.ok.injEq] at h; rw [h]
  | cons p ps ih =>
    unfold gsStep at h
    by_cases h0 : dotW w p.1 p.1 = 0
    · simp [h0] at h
    · simp only [h0, if_false] at h
      rw [ih h fun q hq => hx q (List.mem_cons_of_mem _ hq)]
      simp [dotW_sub, dotW_smul, hx p (by simp)]

theorem gsStep_orth {w : Fin Q → K} {ps : List ((Fin Q → K) × P)} {cur c : (Fin Q → K) × P}
    (h : gsStep w cur ps = .ok c) (ho : ps.Pairwise fun p q => dotW w p.1 q.1 = 0) :
    ∀ p ∈ ps, dotW w c.1 p.1 = 0 := by
  induction ps generalizing cur with
  | nil => simp
  | cons p ps ih =>
    unfold gsStep at h
    rw [List.pairwise_cons] at ho
    by_cases h0 : dotW w p.1 p.1 = 0
    · simp [h0] at h
    · simp only [h0, if_false] at h
      intro q hq
      rcases List.mem_cons.1 hq with rfl | hq
      · rw [gsStep_dot h q.1 fun r hr => by rw [dotW_comm]; exact ho.1 r hr]
        simp [dotW_sub, dotW_smul, h0]
      · exact ih h ho.2 q hq

theorem gsStep_span {w : Fin Q → K} {ps : List ((Fin Q → K) × P)} {cur c : (Fin Q → K) × P}
    (h : gsStep w cur ps = .ok c) (U : Submodule K P) (hU : ∀ p ∈ ps, p.2 ∈ U) : c.2 - cur.2 ∈ U := by
  induction ps generalizing cur with
  | nil => simp only [gsStep, Except.ok.injEq] at h; rw [h]; simp
  | cons p ps ih =>
    unfold gsStep at h
    by_cases h0 : dotW w p.1 p.1 = 0
    · simp [h0] at h
    · simp only [h0, if_false] at h
      have h1 := ih h fun q hq => hU q (List.mem_cons_of_mem _ hq)
      have h2 := U.smul_mem (dotW w cur.1 p.1 / dotW w p.1 p.1) (hU p (by simp))
      have := U.sub_mem h1 h2
      dsimp only at this
      rwa [sub_sub, sub_add_cancel] at this

theorem gsStep_ev {w : Fin Q → K} (ev : P →ₗ[K] (Fin Q → K)) {ps : List ((Fin Q → K) × P)}
    {cur c : (Fin Q → K) × P} (h : gsStep w cur ps = .ok c) (hc : cur.1 = ev cur.2) (hp : ∀ p ∈ ps, p.1 = ev p.2) :
    c.1 = ev c.2 := by
  induction ps generalizing cur with
  | nil => simp only [gsStep, Except.ok.injEq] at h; rw [← h]; exact hc
  | cons p ps ih =>
    unfold gsStep at h
    by_cases h0 : dotW w p.1 p.1 = 0
    · simp [h0] at h
    · simp only [h0, if_false] at h
      exact ih h (by simp [hc, hp p (by simp)]) fun q hq => hp q (List.mem_cons_of_mem _ hq)

theorem gsLoop_append (ev : P →ₗ[K] (Fin Q → K)) (w : Fin Q → K) (ms : List P) (m : P)
    (done : List ((Fin Q → K) × P)) :
    gsLoop ev w (ms ++ [m]) done = (gsLoop ev w ms done).bind fun r =>
      (gsStep w (ev m, m) r).map fun c => r ++ [c] := by
  induction ms generalizing done with
  | nil =>
    cases h : gsStep w (ev m, m) done <;> simp [gsLoop, h, Except.bind, Except.map, bind]
  | cons a ms ih =>
    cases h : gsStep w (ev a, a) done with
    | error e => simp [gsLoop, h, Except.bind, bind]
    | ok c => simp [gsLoop, h, Except.bind, bind, ih]

/-- What is known after orthogonalising `ms`. -/
structure GsFacts (ev : P →ₗ[K] (Fin Q → K)) (w : Fin Q → K) (ms : List P) (out : List ((Fin Q → K) × P)) : Prop where
  len : out.length = ms.length
  eval : ∀ p ∈ out, p.1 = ev p.2
  orth : out.Pairwise fun p q => dotW w p.1 q.1 = 0
  mem : ∀ p ∈ out, p.2 ∈ Submodule.span K {x | x ∈ ms}
  mem' : ∀ m ∈ ms, m ∈ Submodule.span K {x | ∃ p ∈ out, p.2 = x}
  diff : ∀ i (h : i < out.length) (h' : i < ms.length), (out[i]).2 - ms[i] ∈ Submodule.span K {x | x ∈ ms.take i}

theorem gsFacts (ev : P →ₗ[K] (Fin Q → K)) (w : Fin Q → K) (ms : List P) :
    ∀ out, gsLoop ev w ms [] = .ok out → GsFacts ev w ms out := by
  induction ms using List.reverseRecOn with
  | nil =>
    intro out h
    simp only [gsLoop, Except.ok.injEq] at h
    subst h
    exact ⟨rfl, by simp, by simp, by simp, by simp, by simp⟩
  | append_singleton ms m ih =>
    intro out h
    rw [gsLoop_append] at h
    cases hr : gsLoop ev w ms [] with
    | error e => simp [hr, Except.bind] at h
    | ok r =>
      cases hc : gsStep w (ev m, m) r with
      | error e => simp [hr, hc, Except.bind, Except.map] at h
      | ok c =>
        simp only [hr, hc, Except.bind, Except.map, Except.ok.injEq] at h
        subst h
        have F := ih r hr
        have hd := gsStep_span hc _ F.mem
        have hd' : c.2 - m ∈ Submodule.span K {x | ∃ p ∈ r, p.2 = x} :=
          gsStep_span hc _ fun p hp => Submodule.subset_span ⟨p, hp, rfl⟩
        have mono : Submodule.span K {x | x ∈ ms} ≤ Submodule.span K {x | x ∈ ms ++ [m]} :=
          Submodule.span_mono fun x hx => by simp only [Set.mem_ofPred_eq] at hx ⊢; simp [hx]
        have mono' : Submodule.span K {x | ∃ p ∈ r, p.2 = x} ≤ Submodule.span K {x | ∃ p ∈ r ++ [c], p.2 = x} :=
          Submodule.span_mono fun x ⟨p, hp, hx⟩ => ⟨p, by simp [hp], hx⟩
        refine ⟨by simp [F.len], ?_, ?_, ?_, ?_, ?_⟩
        · intro p hp
          rcases List.mem_append.1 hp with hp | hp
          · exact F.eval p hp
          · rw [List.mem_singleton.1 hp]; exact gsStep_ev ev hc rfl F.eval
        · rw [List.pairwise_append]
          refine ⟨F.orth, by simp, fun p hp q hq => ?_⟩
          rw [List.mem_singleton.1 hq, dotW_comm]
          exact gsStep_orth hc F.orth p hp
        · intro p hp
          rcases List.mem_append.1 hp with hp | hp
          · exact mono (F.mem p hp)
          · rw [List.mem_singleton.1 hp]
            have hm : m ∈ Submodule.span K {x | x ∈ ms ++ [m]} := Submodule.subset_span (by simp)
            have := Submodule.add_mem _ (mono hd) hm
            simpa using this
        · intro x hx
          rcases List.mem_append.1 hx with hx | hx
          · exact mono' (F.mem' x hx)
          · rw [List.mem_singleton.1 hx]
            have hcm : c.2 ∈ Submodule.span K {x | ∃ p ∈ r ++ [c], p.2 = x} := Submodule.subset_span ⟨c, by simp, rfl⟩
            have := Submodule.sub_mem _ hcm (mono' hd')
            simpa using this
        · intro i h1 h2
          by_cases hi : i < ms.length
          · have := F.diff i (by rw [F.len]; exact hi) hi
            rw [List.getElem_append_left (by rw [F.len]; exact hi), List.getElem_append_left hi,
              List.take_append_of_le_length hi.le]
            exact this
          · have hi' : i = ms.length := by simp at h2; omega
            have hlen := F.len
            subst hi'
            rw [List.getElem_append_right (by omega), List.getElem_append_right (by omega)]
            simp only [List.take_left, hlen, Nat.sub_self, List.getElem_singleton]
            exact hd

section ordered
variable [LinearOrder K] [IsStrictOrderedRing K]

theorem dotW_self_eq_zero {w : Fin Q → K} (hw : ∀ i, 0 < w i) {a : Fin Q → K} : dotW w a a = 0 ↔ a = 0 := by
  constructor
  · intro h
    unfold dotW at h
    rw [Finset.sum_eq_zero_iff_of_nonneg] at h
    · funext i
      have := h i (Finset.mem_univ i)
      have h2 : w i * (a i * a i) = 0 := by rw [← this]; ring
      rcases mul_eq_zero.1 h2 with h3 | h3
      · exact absurd h3 (hw i).ne'
      · exact mul_self_eq_zero.1 h3
    · intro i _
      have : a i * (w i * a i) = w i * (a i * a i) := by ring
      rw [this]
      exact mul_nonneg (hw i).le (mul_self_nonneg _)
  · rintro rfl; exact dotW_zero w _

/-- The span, orthogonality and evaluation facts make an output vector vanish exactly when its input depends on the
previous ones. -/
theorem gs_zero_iff {ev : P →ₗ[K] (Fin Q → K)} {w : Fin Q → K} (hw : ∀ i, 0 < w i) {ms : List P}
    {out : List ((Fin Q → K) × P)} (h : gsLoop ev w ms [] = .ok out) :
    (∃ p ∈ out, dotW w p.1 p.1 = 0) ↔
      ∃ i, ∃ h : i < ms.length, ev ms[i] ∈ Submodule.span K {x | ∃ m ∈ ms.take i, ev m = x} := by
  induction ms using List.reverseRecOn generalizing out with
  | nil =>
    simp only [gsLoop, Except.ok.injEq] at h
    subst h; simp
  | append_singleton ms m ih =>
    rw [gsLoop_append] at h
    cases hr : gsLoop ev w ms [] with
    | error e => simp [hr, Except.bind] at h
    | ok r =>
      cases hc : gsStep w (ev m, m) r with
      | error e => simp [hr, hc, Except.bind, Except.map] at h
      | ok c =>
        simp only [hr, hc, Except.bind, Except.map, Except.ok.injEq] at h
        subst h
        have F := gsFacts ev w ms r hr
        have hev := gsStep_ev ev hc rfl F.eval
        have himg : {x | ∃ a ∈ ms, ev a = x} = ev '' {x | x ∈ ms} := rfl
        have hcz : dotW w c.1 c.1 = 0 ↔ ev m ∈ Submodule.span K {x | ∃ a ∈ ms, ev a = x} := by
          rw [dotW_self_eq_zero hw, hev]
          have hd := gsStep_span hc _ F.mem
          constructor
          · intro hz
            have h1 : ev (c.2 - m) ∈ Submodule.span K {x | ∃ a ∈ ms, ev a = x} := by
              rw [himg, Submodule.span_image]; exact Submodule.mem_map_of_mem hd
            have h2 := Submodule.neg_mem _ h1
            rw [map_sub, hz, zero_sub, neg_neg] at h2
            exact h2
          · intro hm
            rw [← dotW_self_eq_zero hw, ← hev]
            have hd' : c.2 - m ∈ Submodule.span K {x | x ∈ ms} := hd
            have hcm : c.1 ∈ Submodule.span K {x | ∃ a ∈ ms, ev a = x} := by
              have h1 : ev (c.2 - m) ∈ Submodule.span K {x | ∃ a ∈ ms, ev a = x} := by
                rw [himg, Submodule.span_image]; exact Submodule.mem_map_of_mem hd'
              have := Submodule.add_mem _ h1 hm
              rwa [← map_add, sub_add_cancel, ← hev] at this
            have horth := gsStep_orth hc F.orth
            -- `c` is orthogonal to the span of the previous vectors
            let U : Submodule K (Fin Q → K) :=
              { carrier := {x | dotW w x c.1 = 0}
                add_mem' := fun {a b} ha hb => by
                  simp only [Set.mem_ofPred_eq] at *; rw [dotW_add, ha, hb, add_zero]
                zero_mem' := dotW_zero w _
                smul_mem' := fun k a ha => by simp only [Set.mem_ofPred_eq] at *; rw [dotW_smul, ha, mul_zero] }
            have hle : Submodule.span K {x | ∃ a ∈ ms, ev a = x} ≤ U := by
              rw [Submodule.span_le]
              rintro x ⟨a, ha, rfl⟩
              have h1 := Submodule.mem_map_of_mem (f := ev) (F.mem' a ha)
              rw [← Submodule.span_image] at h1
              have hle' : Submodule.span K (ev '' {x | ∃ p ∈ r, p.2 = x}) ≤ U := by
                rw [Submodule.span_le]
                rintro y ⟨z, ⟨p, hp, rfl⟩, rfl⟩
                show dotW w (ev p.2) c.1 = 0
                rw [← F.eval p hp, dotW_comm]
                exact horth p hp
              exact hle' h1
            exact hle hcm
        have ih' := ih hr
        constructor
        · rintro ⟨p, hp, hz⟩
          rcases List.mem_append.1 hp with hp | hp
          · obtain ⟨i, hi, hs⟩ := ih'.1 ⟨p, hp, hz⟩
            refine ⟨i, by simp; omega, ?_⟩
            rw [List.getElem_append_left hi, List.take_append_of_le_length hi.le]
            exact hs
          · rw [List.mem_singleton.1 hp] at hz
            refine ⟨ms.length, by simp, ?_⟩
            simp only [List.take_left, List.getElem_concat_length]
            exact hcz.1 hz
        · rintro ⟨i, hi, hs⟩
          by_cases hlt : i < ms.length
          · rw [List.getElem_append_left hlt, List.take_append_of_le_length hlt.le] at hs
            obtain ⟨p, hp, hz⟩ := ih'.2 ⟨i, hlt, hs⟩
            exact ⟨p, by simp [hp], hz⟩
          · have : i = ms.length := by simp at hi; omega
            subst this
            simp only [List.take_left, List.getElem_concat_length] at hs
            exact ⟨c, by simp, hcz.2 hs⟩

end ordered

end Lbm
