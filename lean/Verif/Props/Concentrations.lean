/-
C120: setting concentrations and reading them again.
-/
import Verif.Concentrations
import Mathlib.Algebra.Order.Ring.Rat
import Mathlib.Algebra.Field.Rat
import Mathlib.Algebra.CharZero.Defs
import Mathlib.Data.List.OfFn
import Mathlib.Tactic.Ring
import Mathlib.Tactic.FieldSimp
import Mathlib.Tactic.NormNum
import Mathlib.Tactic.Linarith

namespace Lbm
namespace Concentrations

variable {K C : Type} [Field K] [LinearOrder K] [DecidableEq C]

theorem getD_ge {α : Type} (l : List α) (i : ℕ) (d : α) (h : l.length ≤ i) : l.getD i d = d := by
  rw [List.getD_eq_getElem?_getD, List.getElem?_eq_none h, Option.getD_none]

omit [Field K] [LinearOrder K] in
theorem ofFn_write {n : ℕ} (phi : List K) (old : Fin n → K) (h : phi.length = n) : List.ofFn (write phi old) = phi := by
  subst h
  apply List.ext_getElem (by simp)
  intro i h1 h2
  simp [write, h2]

omit [Field K] [LinearOrder K] in
theorem setConcentration_ok {n : ℕ} (conv : Conv K) (slice : List C) (c : List K) (st : C → Fin n → K) {phi : List K} {w : Bool}
    (h : conv.toOrder c = .ok (phi, w)) (hl : phi.length ≤ n) : setConcentration conv slice c st =
      .ok (fun x => if x ∈ slice then write phi (st x) else st x, w) := by
  simp only [setConcentration, h, bind, Except.bind]
  rw [if_neg (fun h => absurd h.1 (not_lt.2 hl))]
  rfl

/-- C120. Cells outside of the slice keep their order parameters, in each model. -/
theorem C120_outside {n : ℕ} (conv : Conv K) (slice : List C) (c : List K) (st st' : C → Fin n → K) (w : Bool)
    (h : setConcentration conv slice c st = .ok (st', w)) (x : C) (hx : x ∉ slice) : st' x = st x := by
  simp only [setConcentration, bind, Except.bind] at h
  cases hc : conv.toOrder c with
  | error e => rw [hc] at h; cases h
  | ok p =>
    rw [hc] at h
    simp only at h
    split_ifs at h
    cases h
    simp only [if_neg hx]

/-- C120. `create_n_phase_model` with `n + 1` phases: afterwards the cells have the given concentrations except for the last, which is one
minus the others. They are the given ones exactly if these add up to one; there is a warning exactly if the sum is off by more than
`1e-5`. -/
theorem C120_n_phase {n : ℕ} (slice : List C) (c : List K) (hc : c.length = n + 1) (st : C → Fin n → K) :
    ∃ st' w, setConcentration nPhase slice c st = .ok (st', w) ∧ (w = true ↔ 1 / 100000 < |c.sum - 1|) ∧
      ∀ x ∈ slice, concentration nPhase st' x = .ok (c.dropLast ++ [1 - c.dropLast.sum]) ∧
        (concentration nPhase st' x = .ok c ↔ c.sum = 1) := by
  have hl : c.dropLast.length = n := by rw [List.length_dropLast, hc]; rfl
  refine ⟨_, _, setConcentration_ok nPhase slice c st rfl (le_of_eq hl), by rw [decide_eq_true_iff], fun x hx => ?_⟩
  have h1 : concentration (nPhase : Conv K) (fun x => if x ∈ slice then write c.dropLast (st x) else st x) x =
      .ok (c.dropLast ++ [1 - c.dropLast.sum]) := by
    simp only [concentration, if_pos hx, ofFn_write _ _ hl, nPhase]
  refine ⟨h1, ?_⟩
  rw [h1]
  have hne : c ≠ [] := by rintro rfl; simp at hc
  have hsplit := List.dropLast_append_getLast hne
  have hsum : c.sum = c.dropLast.sum + c.getLast hne := by
    conv_lhs => rw [← hsplit]
    simp
  constructor
  · intro h
    have h' := Except.ok.inj h
    rw [← h']
    simp
  · intro h
    congr 1
    conv_rhs => rw [← hsplit]
    congr 2
    rw [← h, hsum]; ring

/-- C120. `set_single_concentration` in that model: a phase that is not the last gets the value and the last phase gets one minus the
value, whatever the value is. -/
theorem C120_single {n : ℕ} (slice : List C) (st : C → Fin n → K) (y : C) (phase : ℕ) (hp : phase < n) (value : K) :
    ∃ st' w, setSingle nPhase slice y phase value st = .ok (st', w) ∧
      ∀ x ∈ slice, concentration nPhase st' x = .ok ((List.replicate n 0).set phase value ++ [1 - value]) := by
  have hnum : (List.ofFn (st y) ++ [1 - (List.ofFn (st y)).sum]).length = n + 1 := by simp
  obtain ⟨st', w, h1, -, h2⟩ := C120_n_phase slice ((List.replicate (n + 1) (0 : K)).set phase value) (by simp) st
  have hd : ((List.replicate (n + 1) (0 : K)).set phase value).dropLast = (List.replicate n 0).set phase value := by
    apply List.ext_getElem (by simp)
    intro i h1 h2
    simp only [List.getElem_dropLast, List.getElem_set, List.getElem_replicate]
  have hs : ((List.replicate n (0 : K)).set phase value).sum = value := by
    rw [List.set_eq_take_append_cons_drop, if_pos (by simpa using hp)]
    simp
  refine ⟨st', w, ?_, fun x hx => ?_⟩
  · simp only [setSingle, concentration, nPhase, bind, Except.bind, hnum]
    rw [if_neg (by omega)]
    exact h1
  · rw [(h2 x hx).1, hd, hs]

/-- C120. For the last phase the value is ignored: its concentration is one afterwards. -/
theorem C120_single_last {n : ℕ} (slice : List C) (st : C → Fin n → K) (y : C) (value : K) :
    ∃ st' w, setSingle nPhase slice y n value st = .ok (st', w) ∧
      ∀ x ∈ slice, concentration nPhase st' x = .ok (List.replicate n 0 ++ [1]) := by
  have hnum : (List.ofFn (st y) ++ [1 - (List.ofFn (st y)).sum]).length = n + 1 := by simp
  obtain ⟨st', w, h1, -, h2⟩ := C120_n_phase slice ((List.replicate (n + 1) (0 : K)).set n value) (by simp) st
  have hd : ((List.replicate (n + 1) (0 : K)).set n value).dropLast = List.replicate n 0 := by
    apply List.ext_getElem (by simp)
    intro i h1 h2
    have : i < n := by simpa using h2
    simp only [List.getElem_dropLast, List.getElem_set, List.getElem_replicate]
    rw [if_neg (by omega)]
  refine ⟨st', w, ?_, fun x hx => ?_⟩
  · simp only [setSingle, concentration, nPhase, bind, Except.bind, hnum]
    rw [if_neg (by omega)]
    exact h1
  · rw [(h2 x hx).1, hd]
    simp

omit [LinearOrder K] in
/-- C120. The three phase model with density: what is set is read, also if the concentrations do not add up to one; the density is their
sum. -/
theorem C120_three_phase [CharZero K] (slice : List C) (a b c : K) (st : C → Fin 3 → K) :
    ∃ st', setConcentration threePhase slice [a, b, c] st = .ok (st', false) ∧
      ∀ x ∈ slice, concentration threePhase st' x = .ok [a, b, c] ∧ st' x 0 = a + b + c := by
  refine ⟨_, setConcentration_ok threePhase slice [a, b, c] st (phi := [a + b + c, a - b, c]) rfl (le_refl 3), fun x hx => ?_⟩
  refine ⟨?_, by simp [hx, write]⟩
  simp only [concentration, if_pos hx]
  rw [ofFn_write _ _ rfl]
  have h1 : (a + b + c + (a - b) - c) / 2 = a := by field_simp; ring
  have h2 : (a + b + c - (a - b) - c) / 2 = b := by field_simp; ring
  simp only [threePhase, backward, h1, h2]

omit [LinearOrder K] in
/-- C120. The three phase model without density: no concentrations can be set at all. -/
theorem C120_no_rho_rejects (slice : List C) (hne : slice ≠ []) (c : List K) (st : C → Fin 2 → K) :
    ∃ e, setConcentration threePhaseNoRho slice c st = .error e ∧ (c.length = 3 → e = .indexError) := by
  match c with
  | [] => exact ⟨_, rfl, by simp⟩
  | [_] => exact ⟨_, rfl, by simp⟩
  | [_, _] => exact ⟨_, rfl, by simp⟩
  | [a, b, c] =>
    refine ⟨.indexError, ?_, fun _ => rfl⟩
    simp only [setConcentration, threePhaseNoRho, forward, Except.map, bind, Except.bind]
    rw [if_pos ⟨by simp, hne⟩]
  | _ :: _ :: _ :: _ :: _ => exact ⟨_, rfl, by simp⟩

omit [LinearOrder K] [DecidableEq C] in
/-- C120. Its order parameters are read correctly: the two that belong to concentrations with sum one give these. -/
theorem C120_no_rho_read [CharZero K] (st : C → Fin 2 → K) (x : C) (a b c : K) (hs : a + b + c = 1) (h0 : st x 0 = a - b)
    (h1 : st x 1 = c) : concentration threePhaseNoRho st x = .ok [a, b, c] := by
  have e : List.ofFn (st x) = [a - b, c] := by
    rw [List.ofFn_succ, List.ofFn_succ, List.ofFn_zero]
    rw [← h0, ← h1]
    rfl
  have h1 : (1 + (a - b) - c) / 2 = a := by rw [← hs]; field_simp; ring
  have h2 : (1 - (a - b) - c) / 2 = b := by rw [← hs]; field_simp; ring
  simp only [concentration, e, threePhaseNoRho, backward, h1, h2]

/-- C120. Without conversion (`create_n_phase_model_penalty_term`) what is set is read; a list that is too short changes only the first
phases, one that is too long is an error. -/
theorem C120_plain {n : ℕ} (slice : List C) (c : List K) (st : C → Fin n → K) :
    (n < c.length ∧ slice ≠ [] → setConcentration plain slice c st = .error .indexError) ∧
    (c.length ≤ n → ∃ st', setConcentration plain slice c st = .ok (st', false) ∧
      ∀ x ∈ slice, concentration plain st' x = .ok (c ++ (List.ofFn (st x)).drop c.length)) := by
  constructor
  · intro h
    simp only [setConcentration, plain, bind, Except.bind]
    rw [if_pos h]
  · intro h
    refine ⟨_, setConcentration_ok plain slice c st rfl h, fun x hx => ?_⟩
    simp only [concentration, if_pos hx, plain]
    congr 1
    apply List.ext_getElem
    · simp; omega
    · intro i h1 h2
      rw [List.getElem_append]
      split_ifs with hi
      · simp [write, hi]
      · have : ¬ i < c.length := hi
        simp only [write, List.getElem_ofFn, List.getElem_drop]
        rw [getD_ge _ _ _ (by omega)]
        congr 1
        apply Fin.ext
        simp only
        omega

/-- C120. The last that is set counts: setting a slice twice with the same number of values is setting it once. -/
theorem C120_twice {n : ℕ} (conv : Conv K) (slice : List C) (c d : List K) (st s1 s2 : C → Fin n → K) (w w' : Bool) (phi psi : List K)
    (hc : conv.toOrder c = .ok (phi, w)) (hd : conv.toOrder d = .ok (psi, w')) (hl : phi.length ≤ psi.length) (hn : psi.length ≤ n)
    (h1 : setConcentration conv slice c st = .ok (s1, w)) (h2 : setConcentration conv slice d s1 = .ok (s2, w')) :
    setConcentration conv slice d st = .ok (s2, w') := by
  rw [setConcentration_ok conv slice c st hc (hl.trans hn)] at h1
  rw [setConcentration_ok conv slice d _ hd hn] at h2
  rw [setConcentration_ok conv slice d _ hd hn]
  cases h1
  cases h2
  congr 2
  funext x
  by_cases hx : x ∈ slice
  · simp only [if_pos hx]
    funext i
    simp only [write]
    by_cases hi : (i : ℕ) < psi.length
    · simp [hi]
    · rw [getD_ge _ _ _ (by omega), getD_ge _ _ _ (by omega), getD_ge _ _ _ (by omega)]
  · simp only [if_neg hx]

/-- Concrete case: four phases, two of three cells, with a sum of one and with a sum of 1/2 (the last phase is read as 3/4 instead of 1/4,
with a warning). -/
example : (∃ st', setConcentration nPhase [(0 : ℕ), 2] [1 / 4, 0, 1 / 2, (1 / 4 : ℚ)] (fun _ (_ : Fin 3) => 0) = .ok (st', false) ∧
      concentration nPhase st' 2 = .ok [1 / 4, 0, 1 / 2, 1 / 4]) ∧
    ∃ st', setConcentration nPhase [(0 : ℕ), 2] [1 / 4, 0, 0, (1 / 4 : ℚ)] (fun _ (_ : Fin 3) => 0) = .ok (st', true) ∧
      concentration nPhase st' 2 = .ok [1 / 4, 0, 0, 3 / 4] := by
  constructor
  · obtain ⟨st', w, h1, h2, h3⟩ := C120_n_phase (n := 3) [(0 : ℕ), 2] [1 / 4, 0, 1 / 2, (1 / 4 : ℚ)] rfl fun _ _ => 0
    have hw : w = false := by
      rw [Bool.eq_false_iff, Ne, h2]
      norm_num
    subst hw
    exact ⟨st', h1, (h3 2 (by simp)).2.2 (by norm_num)⟩
  · obtain ⟨st', w, h1, h2, h3⟩ := C120_n_phase (n := 3) [(0 : ℕ), 2] [1 / 4, 0, 0, (1 / 4 : ℚ)] rfl fun _ _ => 0
    have hw : w = true := by
      rw [h2]
      norm_num [abs_lt, lt_abs]
    subst hw
    refine ⟨st', h1, ?_⟩
    rw [(h3 2 (by simp)).1]
    norm_num

end Concentrations
end Lbm
