/-
Property theorems C102: the exact differencing force model with forces that depend on the velocity.
-/
import Verif.EdmSubst
import Mathlib.Algebra.BigOperators.Fin
import Mathlib.Algebra.Order.Field.Rat
import Mathlib.Tactic.Ring
import Mathlib.Tactic.FieldSimp
import Mathlib.Tactic.NormNum
import Mathlib.Tactic.LinearCombination

namespace Lbm
namespace EdmSubst

open SymbolicForce

variable {K : Type} [Field K]

/-! ### Specification -/

/-- the values of the symbols with the velocity shifted: component `i` of the velocity by `F_i / ref`, all at once -/
def shifted (us : List String) (F : List K) (ref : K) (env : String → K) (s : String) : K :=
  match us.idxOf? s with
  | some i => env s + F.getD i 0 / ref
  | none => env s

/-! ### Helpers -/

theorem eval_subst (x : String) (s t : Term K) (env : String → K) :
    (subst x s t).eval env = t.eval (Function.update env x (s.eval env)) := by
  induction t with
  | num c => rfl
  | sym y =>
    unfold subst
    split_ifs with h
    · subst h; simp [Term.eval]
    · simp [Term.eval, Function.update_of_ne h]
  | add a b iha ihb => simp [subst, Term.eval, iha, ihb]
  | mul a b iha ihb => simp [subst, Term.eval, iha, ihb]
  | inv a iha => simp [subst, Term.eval, iha]

theorem eval_congr (t : Term K) {e e' : String → K} (h : ∀ s ∈ t.vars, e s = e' s) : t.eval e = t.eval e' := by
  induction t with
  | num c => rfl
  | sym y => exact h y (by simp [Term.vars])
  | add a b iha ihb =>
    simp only [Term.eval]
    rw [iha fun s hs => h s (by simp [Term.vars, hs]), ihb fun s hs => h s (by simp [Term.vars, hs])]
  | mul a b iha ihb =>
    simp only [Term.eval]
    rw [iha fun s hs => h s (by simp [Term.vars, hs]), ihb fun s hs => h s (by simp [Term.vars, hs])]
  | inv a iha =>
    simp only [Term.eval]
    rw [iha fun s hs => h s (by simpa [Term.vars] using hs)]

/-- the values the symbols effectively have after the substitutions: the last one first -/
def effective (l : List (String × Term K)) (env : String → K) : String → K :=
  l.foldr (fun p e => Function.update e p.1 (p.2.eval e)) env

theorem eval_subs (l : List (String × Term K)) (t : Term K) (env : String → K) :
    (subs l t).eval env = t.eval (effective l env) := by
  induction l generalizing t with
  | nil => rfl
  | cons p l ih =>
    show (subs l (subst p.1 p.2 t)).eval env = _
    rw [ih, eval_subst]
    rfl

theorem effective_other (l : List (String × Term K)) (env : String → K) (s : String) (h : s ∉ l.map (·.1)) :
    effective l env s = env s := by
  induction l with
  | nil => rfl
  | cons p l ih =>
    simp only [List.map_cons, List.mem_cons, not_or] at h
    show Function.update (effective l env) p.1 _ s = _
    rw [Function.update_of_ne h.1, ih h.2]

/-- if no inserted expression mentions a symbol that is replaced later, the replacements are simultaneous -/
theorem effective_simultaneous (l : List (String × Term K)) (env : String → K) (hn : (l.map (·.1)).Nodup)
    (h : l.Pairwise fun p q => q.1 ∉ p.2.vars) (p : String × Term K) (hp : p ∈ l) : effective l env p.1 = p.2.eval env := by
  induction l with
  | nil => cases hp
  | cons q l ih =>
    simp only [List.map_cons, List.nodup_cons] at hn
    rw [List.pairwise_cons] at h
    show Function.update (effective l env) q.1 (q.2.eval (effective l env)) p.1 = _
    rcases List.mem_cons.1 hp with rfl | hp'
    · rw [Function.update_self]
      refine eval_congr _ fun s hs => effective_other l env s fun hmem => ?_
      obtain ⟨r, hr, rfl⟩ := List.mem_map.1 hmem
      exact h.1 r hr hs
    · have hne : p.1 ≠ q.1 := fun e => hn.1 (e ▸ List.mem_map_of_mem hp')
      rw [Function.update_of_ne hne, ih hn.2 h.2 hp']

/-! ### C102 -/

section
variable {us : List String} {rho deltaRho : String} {rho0 : K} {compressible : Bool} {force : List (Term K)}

/-- the value of the reference density -/
def refVal (rho : String) (compressible : Bool) (env : String → K) : K := if compressible then env rho else 1

/-- the expressions substituted for the velocity symbols -/
def shifts (us : List String) (rho : String) (compressible : Bool) (force : List (Term K)) : List (String × Term K) :=
  us.zip (List.zipWith (fun u f => Term.add (.sym u) (.mul f (.inv (if compressible then .sym rho else .num 1)))) us force)

theorem eval_edm (eqs : List (Term K)) (env : String → K) :
    (edm us rho deltaRho rho0 compressible force eqs).map (Term.eval env) = eqs.map fun t =>
      t.eval (Function.update (effective (shifts us rho compressible force) env) deltaRho
        (effective (shifts us rho compressible force) env rho - rho0)) -
      t.eval (Function.update env deltaRho (env rho - rho0)) := by
  simp only [edm, List.map_map]
  refine List.map_congr_left fun t _ => ?_
  simp only [Function.comp, Term.eval, eval_subs]
  simp only [effective, List.foldr_cons, List.foldr_nil, Term.eval]
  unfold shifts
  simp only [sub_eq_add_neg, neg_one_mul]

theorem shifts_names (hl : force.length = us.length) : (shifts us rho compressible force).map (·.1) = us := by
  unfold shifts
  rw [← List.unzip_fst, List.unzip_zip]
  simp [hl]

theorem shifts_get (hl : force.length = us.length) (i : ℕ) (hi : i < us.length) :
    (us[i], Term.add (.sym us[i]) (.mul (force[i]'(by omega)) (.inv (if compressible then .sym rho else .num 1)))) ∈
      shifts us rho compressible force := by
  unfold shifts
  rw [List.mem_iff_getElem]
  exact ⟨i, by simp [hl, hi], by simp⟩

/-- the forces for which the model works: no component mentions a velocity component that follows it -/
def Triangular (us : List String) (force : List (Term K)) : Prop :=
  ∀ i j (hi : i < force.length) (hj : j < us.length), i < j → us[j] ∉ force[i].vars

theorem effective_eq_shifted (hl : force.length = us.length) (hn : us.Nodup) (hr : rho ∉ us) (ht : Triangular us force) (env : String → K) :
    effective (shifts us rho compressible force) env =
      shifted us (force.map (Term.eval env)) (refVal rho compressible env) env := by
  funext s
  by_cases hs : s ∈ us
  · obtain ⟨i, hi, rfl⟩ := List.getElem_of_mem hs
    have hp : (shifts us rho compressible force).Pairwise fun p q => q.1 ∉ p.2.vars := by
      rw [List.pairwise_iff_getElem]
      intro a b ha hb hab
      have hlen : (shifts us rho compressible force).length = us.length := by simp [shifts, hl]
      have ha' : a < us.length := by omega
      have hb' : b < us.length := by omega
      simp only [shifts, List.getElem_zip, List.getElem_zipWith, Term.vars, List.mem_append, List.mem_singleton, not_or]
      refine ⟨fun e => ?_, ht a b (by omega) hb' hab, fun h => ?_⟩
      · have := (List.Nodup.getElem_inj_iff hn).1 e
        omega
      · cases compressible
        · simp [Term.vars] at h
        · simp only [if_true, Term.vars, List.mem_singleton] at h
          exact hr (h ▸ List.getElem_mem hb')
    rw [effective_simultaneous _ env (by rw [shifts_names hl]; exact hn) hp _ (shifts_get hl i hi)]
    have hidx : us.idxOf? us[i] = some i := by
      rw [List.idxOf?_eq_some_iff]
      refine ⟨hi, rfl, fun j hj e => ?_⟩
      have := (List.Nodup.getElem_inj_iff hn).1 e
      omega
    simp only [shifted, hidx, Term.eval, refVal]
    have hF : (force.map (Term.eval env)).getD i 0 = (force[i]'(by omega)).eval env := by
      simp [List.getD_eq_getElem?_getD, List.getElem?_eq_getElem (show i < force.length by omega)]
    rw [hF]
    cases compressible <;> simp [Term.eval, div_eq_mul_inv]
  · rw [effective_other _ _ _ (by rw [shifts_names hl]; exact hs)]
    have : us.idxOf? s = none := by rw [List.idxOf?_eq_none_iff]; exact hs
    simp [shifted, this]

/-- C102: if no component of the force mentions a later velocity component, the force terms are the difference of the equilibria at the
velocities with and without the shift by `F / ρ`, the force being evaluated at the velocity without shift. -/
theorem C102_edm_partial (hl : force.length = us.length) (hn : us.Nodup) (hr : rho ∉ us) (ht : Triangular us force)
    (eqs : List (Term K)) (env : String → K) (hd : env deltaRho = env rho - rho0) (hdu : deltaRho ∉ us) :
    (edm us rho deltaRho rho0 compressible force eqs).map (Term.eval env) = eqs.map fun t =>
      t.eval (shifted us (force.map (Term.eval env)) (refVal rho compressible env) env) - t.eval env := by
  rw [eval_edm, effective_eq_shifted hl hn hr ht]
  have hsame : ∀ s ∉ us, shifted us (force.map (Term.eval env)) (refVal rho compressible env) env s = env s := by
    intro s hs
    have : us.idxOf? s = none := by rw [List.idxOf?_eq_none_iff]; exact hs
    simp [shifted, this]
  rw [hsame rho hr, ← hd, Function.update_eq_self]
  have h2 : Function.update (shifted us (force.map (Term.eval env)) (refVal rho compressible env) env) deltaRho (env deltaRho) =
      shifted us (force.map (Term.eval env)) (refVal rho compressible env) env := by
    rw [← hsame deltaRho hdu, Function.update_eq_self]
  rw [h2]

/-- C102: the momentum added, for every force. `eqs` are equilibria of the populations with momentum `ref u`. In component `i`, the
force is evaluated where the later velocity components are shifted already. -/
theorem C102_momentum (hl : force.length = us.length) (hn : us.Nodup) (hr : rho ∉ us) (hdu : deltaRho ∉ us)
    {Q : ℕ} (eqs : Fin Q → Term K) (c : Fin Q → K) (i : ℕ) (hi : i < us.length)
    (hm : ∀ env, env deltaRho = env rho - rho0 → ∑ q, c q * (eqs q).eval env = refVal rho compressible env * env us[i])
    (env : String → K) (hd : env deltaRho = env rho - rho0) (href : refVal rho compressible env ≠ 0) :
    ∑ q, c q * (((edm us rho deltaRho rho0 compressible force (List.ofFn eqs)).map (Term.eval env)).getD q 0) =
      (force[i]'(by omega)).eval (effective ((shifts us rho compressible force).drop (i + 1)) env) := by
  have hnames := shifts_names (rho := rho) (compressible := compressible) hl
  have hlen : (shifts us rho compressible force).length = us.length := by rw [← List.length_map (f := (·.1)), hnames]
  set l := shifts us rho compressible force with hldef
  have heff : ∀ s ∉ us, effective l env s = env s := fun s hs => effective_other l env s (by rw [hnames]; exact hs)
  have hq : ∀ q : Fin Q, ((edm us rho deltaRho rho0 compressible force (List.ofFn eqs)).map (Term.eval env)).getD q 0 =
      (eqs q).eval (effective l env) - (eqs q).eval env := by
    intro q
    rw [eval_edm, heff rho hr, ← hd, Function.update_eq_self, ← hldef]
    have h2 : Function.update (effective l env) deltaRho (env deltaRho) = effective l env := by
      rw [← heff deltaRho hdu, Function.update_eq_self]
    rw [h2]
    simp [List.getD_eq_getElem?_getD]
  simp only [hq, mul_sub, Finset.sum_sub_distrib]
  rw [hm env hd, hm (effective l env) (by rw [heff _ hdu, heff _ hr, hd])]
  have href' : refVal rho compressible (effective l env) = refVal rho compressible env := by
    unfold refVal
    rw [heff rho hr]
  rw [href']
  -- the value of component `i`
  have hval : ∀ (l : List (String × Term K)) (i : ℕ) (hi : i < l.length), (l.map (·.1)).Nodup →
      effective l env l[i].1 = l[i].2.eval (effective (l.drop (i + 1)) env) := by
    intro l
    induction l with
    | nil => intro i hi; simp at hi
    | cons p l ih =>
      intro i hi hnd
      simp only [List.map_cons, List.nodup_cons] at hnd
      rcases i with _ | i
      · show Function.update (effective l env) p.1 _ p.1 = _
        rw [Function.update_self]
        rfl
      · have hi' : i < l.length := by simpa using hi
        have hne : l[i].1 ≠ p.1 := fun e => hnd.1 (e ▸ List.mem_map_of_mem (List.getElem_mem hi'))
        show Function.update (effective l env) p.1 _ l[i].1 = _
        rw [Function.update_of_ne hne, ih i hi' hnd.2]
        rfl
  have hi' : i < l.length := by omega
  have hli : l[i] = (us[i], Term.add (.sym us[i]) (.mul (force[i]'(by omega)) (.inv (if compressible then .sym rho else .num 1)))) := by
    simp [hldef, shifts]
  have hv := hval l i hi' (by rw [hnames]; exact hn)
  rw [hli] at hv
  simp only [Term.eval] at hv
  have hdrop : ∀ s, (s ∉ us.drop (i + 1)) → effective (l.drop (i + 1)) env s = env s := fun s hs =>
    effective_other _ env s (by rw [List.map_drop, hnames]; exact hs)
  have hui : us[i] ∉ us.drop (i + 1) := by
    intro h
    obtain ⟨j, hj, e⟩ := List.getElem_of_mem h
    rw [List.getElem_drop] at e
    have := (List.Nodup.getElem_inj_iff hn).1 e
    omega
  rw [hdrop _ hui] at hv
  have hrefe : (Term.inv (if compressible then Term.sym rho else Term.num 1 : Term K)).eval (effective (l.drop (i + 1)) env) =
      (refVal rho compressible env)⁻¹ := by
    cases compressible
    · simp [Term.eval, refVal]
    · simp only [if_true, Term.eval, refVal]
      rw [hdrop rho fun h => hr (List.mem_of_mem_drop h)]
  simp only [Term.eval] at hrefe
  rw [hrefe] at hv
  rw [hv]
  field_simp
  ring

end

/-! ### A force perpendicular to the velocity -/

/-- a Coriolis force `(u_1, -u_0)` -/
def coriolis : List (Term ℚ) := [.sym "u_1", .mul (.num (-1)) (.sym "u_0")]

/-- equilibria of the four neighbours in two dimensions whose momentum is the density times the velocity -/
def eq4 : Fin 4 → Term ℚ :=
  ![.mul (.num (1 / 4)) (.mul (.sym "rho") (.add (.num 1) (.mul (.num 2) (.sym "u_0")))),
    .mul (.num (1 / 4)) (.mul (.sym "rho") (.add (.num 1) (.mul (.num (-2)) (.sym "u_0")))),
    .mul (.num (1 / 4)) (.mul (.sym "rho") (.add (.num 1) (.mul (.num 2) (.sym "u_1")))),
    .mul (.num (1 / 4)) (.mul (.sym "rho") (.add (.num 1) (.mul (.num (-2)) (.sym "u_1"))))]

/-- the values of the symbols: density 1, velocity (1/10, 0) -/
def env0 : String → ℚ := fun s => if s = "rho" then 1 else if s = "u_0" then 1 / 10 else 0

/-- C102, a disagreement: with a Coriolis force, the force at this velocity has first component 0, but momentum -1/10 is added, because
the force is evaluated with the second velocity component shifted already. -/
theorem C102_coriolis :
    (∀ env : String → ℚ, ∑ q, ![1, -1, 0, 0] q * (eq4 q).eval env = env "rho" * env "u_0") ∧
    (coriolis.map (Term.eval env0)) = [0, -1 / 10] ∧
    ∑ q, (![1, -1, 0, 0] : Fin 4 → ℚ) q *
      (((edm ["u_0", "u_1"] "rho" "delta_rho" 1 true coriolis (List.ofFn eq4)).map (Term.eval env0)).getD q 0) = -1 / 10 ∧
    ¬ Triangular ["u_0", "u_1"] coriolis := by
  refine ⟨fun env => ?_, ?_, ?_, ?_⟩
  · simp [Fin.sum_univ_four, eq4, Term.eval]
    ring
  · simp [coriolis, Term.eval, env0]
    norm_num
  · have h := C102_momentum (us := ["u_0", "u_1"]) (rho := "rho") (deltaRho := "delta_rho") (rho0 := (1 : ℚ)) (compressible := true)
      (force := coriolis) rfl (by decide) (by decide) (by decide) eq4 ![1, -1, 0, 0] 0 (by decide) (fun env _ => by
        simp [Fin.sum_univ_four, eq4, Term.eval, refVal]; ring) env0 (by simp [env0]) (by simp [env0, refVal])
    refine h.trans ?_
    simp [coriolis, shifts, effective, Term.eval, env0]
    norm_num
  · intro h
    exact h 0 1 (by decide) (by decide) (by decide) (by simp [coriolis, Term.vars])

/-- the hypothesis of `C102_edm_partial` is met by a drag force `-u/2` -/
example : Triangular ["u_0", "u_1"] [Term.mul (.num (-1 / 2 : ℚ)) (.sym "u_0"), .mul (.num (-1 / 2)) (.sym "u_1")] := by
  intro i j hi hj hij
  have hi' : i < 2 := hi
  have hj' : j < 2 := hj
  obtain ⟨rfl, rfl⟩ : i = 0 ∧ j = 1 := by omega
  simp [Term.vars]

end EdmSubst
end Lbm
