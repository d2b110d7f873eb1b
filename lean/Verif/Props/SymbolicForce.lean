import Verif.SymbolicForce
import Mathlib.Data.List.Nodup
import Mathlib.Tactic.NormNum
import Mathlib.Tactic.Ring
import Mathlib.Tactic.FinCases
import Mathlib.Tactic.IntervalCases
import Mathlib.Data.Rat.Defs
import Mathlib.Algebra.Order.Ring.Rat
import Mathlib.Algebra.Field.Rat

/-!
# C96: making the force symbolic keeps its value, unless names collide

A force model works with symbols instead of the given force. What the kernel computes with those symbols should be what it would
compute with the given force.
-/

namespace Lbm
namespace SymbolicForce

namespace Spec
variable {K : Type}

/-- the `j`-th of `F_x`, `F_y`, `F_z` stands for the `j`-th component of the force -/
def StandsFor (name : String) (j : ℕ) : Prop :=
  (j = 0 ∧ name = "F_x") ∨ (j = 1 ∧ name = "F_y") ∨ (j = 2 ∧ name = "F_z")

/-- a name that is given a new value: it stands for a component that is not a plain symbol -/
def Replaced (force : List (Term K)) (name : String) : Prop :=
  ∃ j f, StandsFor name j ∧ force[j]? = some f ∧ ∀ s, f ≠ .sym s

/-- no component of the force mentions a name that is given a new value -/
def ClashFree (force : List (Term K)) : Prop :=
  ∀ f ∈ force, ∀ s ∈ f.vars, ¬ Replaced force s

/-- the equations that every symbol of a list of assignments has the value of its right hand side -/
def Solves [Field K] (l : List (String × Term K)) (env : String → K) : Prop :=
  ∀ a ∈ l, env a.1 = a.2.eval env

end Spec

section general
variable {K : Type}

theorem eval_congr [Field K] {e e' : String → K} : ∀ t : Term K, (∀ s ∈ t.vars, e s = e' s) → t.eval e = t.eval e'
  | .num _, _ => rfl
  | .sym s, h => h s (by simp [Term.vars])
  | .add a b, h => by
    simp only [Term.eval]
    rw [eval_congr a fun s hs => h s (List.mem_append_left _ hs), eval_congr b fun s hs => h s (List.mem_append_right _ hs)]
  | .mul a b, h => by
    simp only [Term.eval]
    rw [eval_congr a fun s hs => h s (List.mem_append_left _ hs), eval_congr b fun s hs => h s (List.mem_append_right _ hs)]
  | .inv a, h => by
    simp only [Term.eval]
    rw [eval_congr a h]

theorem run_cons [Field K] (a : String × Term K) (l : List (String × Term K)) (env : String → K) :
    run (a :: l) env = run l (fun s => if s = a.1 then a.2.eval env else env s) := rfl

theorem run_unassigned [Field K] (l : List (String × Term K)) : ∀ (env : String → K) (s : String), s ∉ l.map Prod.fst →
    run l env s = env s := by
  induction l with
  | nil => intro env s _; rfl
  | cons a l ih =>
    intro env s hs
    rw [List.map_cons, List.mem_cons, not_or] at hs
    rw [run_cons, ih _ s hs.2, if_neg hs.1]

/-- A sorted list of assignments to different symbols solves its equations. -/
theorem run_sorted [Field K] (l : List (String × Term K)) : ∀ env : String → K, Sorted l → (l.map Prod.fst).Nodup →
    Spec.Solves l (run l env) := by
  induction l with
  | nil => intro env _ _ a ha; simp at ha
  | cons b l ih =>
    intro env hs hn a ha
    rw [List.map_cons, List.nodup_cons] at hn
    rw [run_cons]
    rcases List.mem_cons.1 ha with rfl | ha
    · rw [run_unassigned l _ _ hn.1, if_pos rfl]
      refine eval_congr _ fun s hv => ?_
      have := hs.1 s hv
      rw [run_unassigned l _ _ this.2, if_neg this.1]
    · exact ih _ hs.2 hn.2 a ha

/-- The solution of the equations of a sorted list is determined by the values of the symbols that are not assigned. -/
theorem solution_unique [Field K] (l : List (String × Term K)) : ∀ e e' : String → K, Sorted l →
    (∀ s, s ∉ l.map Prod.fst → e s = e' s) → Spec.Solves l e → Spec.Solves l e' → e = e' := by
  induction l with
  | nil => intro e e' _ h _ _; funext s; exact h s (by simp)
  | cons b l ih =>
    intro e e' hs h he he'
    refine ih e e' hs.2 (fun s hsl => ?_) (fun a ha => he a (List.mem_cons_of_mem _ ha))
      (fun a ha => he' a (List.mem_cons_of_mem _ ha))
    by_cases hb : s = b.1
    · subst hb
      rw [he b List.mem_cons_self, he' b List.mem_cons_self]
      refine eval_congr _ fun v hv => h v ?_
      have := hs.1 v hv
      simpa [List.mem_cons] using this
    · exact h s (by simpa [List.mem_cons, hb] using hsl)

end general

section force
variable {K : Type}

theorem differs_symbolOf (f : Term K) (y : String) : differs (symbolOf f y) f = !f.isSymbol := by
  cases f <;> simp [differs, symbolOf, Term.isSymbol]

theorem symbolOf_of_not (f : Term K) (y : String) (h : f.isSymbol = false) : symbolOf f y = y := by
  cases f <;> simp_all [symbolOf, Term.isSymbol]

theorem differs_of_not (f : Term K) (y : String) (h : f.isSymbol = false) : differs y f = true := by
  cases f <;> simp_all [differs, Term.isSymbol]

theorem isSymbol_iff (f : Term K) : f.isSymbol = true ↔ ∃ s, f = .sym s := by
  cases f <;> simp [Term.isSymbol]

/-- The dictionary has one entry for every component that is not a symbol. -/
theorem subsDict_eq (force : List (Term K)) :
    subsDict force = (forceSymbols.zip force).filter fun p => !p.2.isSymbol := by
  rcases force with _ | ⟨a, _ | ⟨b, _ | ⟨c, r⟩⟩⟩
  · rfl
  · cases ha : a.isSymbol <;>
      simp [subsDict, symbolicForce, forceSymbols, differs_symbolOf, ha, insertKey, symbolOf_of_not, differs_of_not]
  · cases ha : a.isSymbol <;> cases hb : b.isSymbol <;>
      simp [subsDict, symbolicForce, forceSymbols, differs_symbolOf, ha, hb, insertKey, symbolOf_of_not, differs_of_not]
  · cases ha : a.isSymbol <;> cases hb : b.isSymbol <;> cases hc : c.isSymbol <;>
      simp [subsDict, symbolicForce, forceSymbols, differs_symbolOf, ha, hb, hc, insertKey, symbolOf_of_not, differs_of_not]

theorem mem_subsDict (force : List (Term K)) (name : String) (f : Term K) :
    (name, f) ∈ subsDict force ↔ ∃ j, Spec.StandsFor name j ∧ force[j]? = some f ∧ ∀ s, f ≠ .sym s := by
  have hsym : (!f.isSymbol) = true ↔ ∀ s, f ≠ .sym s := by
    cases f <;> simp [Term.isSymbol]
  rw [subsDict_eq, List.mem_filter]
  simp only [hsym]
  have hre : (∃ j, Spec.StandsFor name j ∧ force[j]? = some f ∧ ∀ s, f ≠ .sym s) ↔
      (∃ j, Spec.StandsFor name j ∧ force[j]? = some f) ∧ ∀ s, f ≠ .sym s := by
    constructor
    · rintro ⟨j, a, b, c⟩; exact ⟨⟨j, a, b⟩, c⟩
    · rintro ⟨⟨j, a, b⟩, c⟩; exact ⟨j, a, b, c⟩
  rw [hre]
  refine and_congr_left fun _ => ?_
  simp only [Spec.StandsFor]
  rcases force with _ | ⟨a, _ | ⟨b, _ | ⟨c, r⟩⟩⟩ <;> simp only [forceSymbols, List.zip_cons_cons, List.zip_nil_right, List.zip_nil_left,
    List.mem_cons, List.not_mem_nil, or_false, Prod.mk.injEq, false_iff, not_exists, not_and]
  · rintro j _; simp
  · constructor
    · rintro ⟨rfl, rfl⟩; exact ⟨0, by simp⟩
    · rintro ⟨j, ⟨rfl, rfl⟩ | ⟨rfl, rfl⟩ | ⟨rfl, rfl⟩, h⟩ <;> simp_all
  · constructor
    · rintro (⟨rfl, rfl⟩ | ⟨rfl, rfl⟩)
      · exact ⟨0, by simp⟩
      · exact ⟨1, by simp⟩
    · rintro ⟨j, ⟨rfl, rfl⟩ | ⟨rfl, rfl⟩ | ⟨rfl, rfl⟩, h⟩ <;> simp_all
  · constructor
    · rintro (⟨rfl, rfl⟩ | ⟨rfl, rfl⟩ | ⟨rfl, rfl⟩)
      · exact ⟨0, by simp⟩
      · exact ⟨1, by simp⟩
      · exact ⟨2, by simp⟩
    · rintro ⟨j, ⟨rfl, rfl⟩ | ⟨rfl, rfl⟩ | ⟨rfl, rfl⟩, h⟩ <;> simp_all

theorem replaced_iff (force : List (Term K)) (name : String) :
    Spec.Replaced force name ↔ name ∈ (subsDict force).map Prod.fst := by
  simp only [Spec.Replaced, List.mem_map, Prod.exists, exists_and_right, exists_eq_right, mem_subsDict]
  constructor
  · rintro ⟨j, f, h⟩; exact ⟨f, j, h⟩
  · rintro ⟨f, j, h⟩; exact ⟨j, f, h⟩

/-- The dictionary assigns different symbols. -/
theorem subsDict_nodup (force : List (Term K)) : ((subsDict force).map Prod.fst).Nodup := by
  rw [subsDict_eq]
  refine List.Nodup.sublist ((List.filter_sublist).map _) ?_
  refine List.Nodup.sublist (l₂ := forceSymbols) ?_ (by decide)
  rcases force with _ | ⟨a, _ | ⟨b, _ | ⟨c, r⟩⟩⟩ <;> simp [forceSymbols]

/-- **C96** In every collection of assignments to different symbols that contains the substitutions and is sorted, at the end of the
execution the symbolic force has the value of the given force. -/
theorem C96_value [Field K] (force : List (Term K)) (hD : force.length ≤ 3) (l : List (String × Term K))
    (hl : ∀ a ∈ subsDict force, a ∈ l) (hs : Sorted l) (hn : (l.map Prod.fst).Nodup) (env : String → K) :
    (symbolicForce force).map (run l env) = force.map (Term.eval (run l env)) := by
  have hsol := run_sorted l env hs hn
  obtain ⟨e, he⟩ : ∃ e, e = run l env := ⟨_, rfl⟩
  rw [← he] at hsol ⊢
  refine List.ext_getElem? fun i => ?_
  rw [List.getElem?_map, List.getElem?_map, symbolicForce, List.getElem?_zipWith]
  rcases hf : force[i]? with _ | f
  · rfl
  · have hi : i < 3 := by
      have := (List.getElem?_eq_some_iff.1 hf).1
      omega
    obtain ⟨y, hy⟩ : ∃ y, forceSymbols[i]? = some y := ⟨forceSymbols[i]'(by simpa [forceSymbols] using hi), by simp⟩
    rw [hy]
    simp only [Option.map_some, Option.some.injEq]
    cases hsy : f.isSymbol
    · rw [symbolOf_of_not f y hsy]
      refine hsol (y, f) (hl _ ?_)
      rw [mem_subsDict]
      refine ⟨i, ?_, hf, fun s hc => by simp [hc, Term.isSymbol] at hsy⟩
      simp only [Spec.StandsFor]
      interval_cases i <;> simp_all [forceSymbols]
    · obtain ⟨s, rfl⟩ := (isSymbol_iff f).1 hsy
      rfl

/-- **C96** If the components depend on nothing that the collection assigns, this is the value they have before. -/
theorem C96_inputs [Field K] (force : List (Term K)) (hD : force.length ≤ 3) (l : List (String × Term K))
    (hl : ∀ a ∈ subsDict force, a ∈ l) (hs : Sorted l) (hn : (l.map Prod.fst).Nodup)
    (hin : ∀ f ∈ force, ∀ s ∈ f.vars, s ∉ l.map Prod.fst) (env : String → K) :
    (symbolicForce force).map (run l env) = force.map (Term.eval env) := by
  rw [C96_value force hD l hl hs hn env]
  exact List.map_congr_left fun f hf => eval_congr f fun s hv => run_unassigned l env s (hin f hf s hv)

theorem sorted_of_disjoint (l : List (String × Term K)) (h : ∀ a ∈ l, ∀ s ∈ a.2.vars, s ∉ l.map Prod.fst) : Sorted l := by
  induction l with
  | nil => trivial
  | cons b l ih =>
    refine ⟨fun s hs => ?_, ih fun a ha s hs => ?_⟩
    · have := h b List.mem_cons_self s hs
      simpa [List.mem_cons] using this
    · have := h a (List.mem_cons_of_mem _ ha) s hs
      rw [List.map_cons, List.mem_cons, not_or] at this
      exact this.2

/-- **C96** Without a clash of names every order of the substitutions is sorted, the symbolic force has the value of the given force,
and no other symbol changes. -/
theorem C96_clash_free [Field K] (force : List (Term K)) (hD : force.length ≤ 3) (hc : Spec.ClashFree force)
    (l : List (String × Term K)) (hl : l.Perm (subsDict force)) (env : String → K) :
    Sorted l ∧ (symbolicForce force).map (run l env) = force.map (Term.eval env) ∧
      ∀ s, ¬ Spec.Replaced force s → run l env s = env s := by
  have hfst : ∀ s, s ∈ l.map Prod.fst ↔ Spec.Replaced force s := fun s => by
    rw [replaced_iff]; exact (hl.map Prod.fst).mem_iff
  have hmem : ∀ a ∈ l, a.2 ∈ force := fun a ha => by
    have := (mem_subsDict force a.1 a.2).1 (hl.mem_iff.1 ha)
    obtain ⟨j, _, hj, _⟩ := this
    exact List.mem_of_getElem? hj
  have hs : Sorted l := sorted_of_disjoint l fun a ha s hv => by
    rw [hfst]; exact hc _ (hmem a ha) s hv
  have hn : (l.map Prod.fst).Nodup := (hl.map Prod.fst).nodup_iff.2 (subsDict_nodup force)
  refine ⟨hs, C96_inputs force hD l (fun a ha => hl.mem_iff.2 ha) hs hn (fun f hf s hv => ?_) env, fun s hr => ?_⟩
  · rw [hfst]; exact hc f hf s hv
  · exact run_unassigned l env s (by rwa [hfst])

theorem sorted_append (l m : List (String × Term K)) (hl : ∀ a ∈ l, ∀ s ∈ a.2.vars, s ∉ (l ++ m).map Prod.fst) (hm : Sorted m) :
    Sorted (l ++ m) := by
  induction l with
  | nil => exact hm
  | cons b l ih =>
    refine ⟨fun s hs => ?_, ih fun a ha s hs h => hl a (List.mem_cons_of_mem _ ha) s hs (List.mem_cons_of_mem _ h)⟩
    have := hl b List.mem_cons_self s hs
    simp only [List.cons_append, List.map_cons, List.mem_cons, not_or] at this
    exact this

/-- **C96** The substitutions are put in front of the other subexpressions. For a force that mentions none of the symbols that are
assigned, the collection can be executed as it is, and every subexpression that uses the symbols of the force sees its components. -/
theorem C96_in_front [Field K] (force : List (Term K)) (hD : force.length ≤ 3) (hc : Spec.ClashFree force)
    (sub : List (String × Term K)) (hsub : Sorted sub) (hnd : (sub.map Prod.fst).Nodup)
    (hin : ∀ f ∈ force, ∀ s ∈ f.vars, s ∉ sub.map Prod.fst) (hfree : ∀ s ∈ sub.map Prod.fst, ¬ Spec.Replaced force s)
    (env : String → K) :
    Sorted (addSubstitutions sub force) ∧
      (symbolicForce force).map (run (addSubstitutions sub force) env) = force.map (Term.eval env) ∧
      ∀ a ∈ sub, run (addSubstitutions sub force) env a.1 = a.2.eval (run (addSubstitutions sub force) env) := by
  have hmem : ∀ a ∈ subsDict force, a.2 ∈ force := fun a ha => by
    obtain ⟨j, _, hj, _⟩ := (mem_subsDict force a.1 a.2).1 ha
    exact List.mem_of_getElem? hj
  have hs : Sorted (addSubstitutions sub force) := sorted_append _ _ (fun a ha s hv => by
    rw [List.map_append, List.mem_append, not_or, ← replaced_iff]
    exact ⟨hc _ (hmem a ha) s hv, hin _ (hmem a ha) s hv⟩) hsub
  have hn : ((addSubstitutions sub force).map Prod.fst).Nodup := by
    rw [addSubstitutions, List.map_append, List.nodup_append]
    exact ⟨subsDict_nodup force, hnd, fun s h t ht he => hfree t ht (by rw [replaced_iff, ← he]; exact h)⟩
  refine ⟨hs, C96_inputs force hD _ (fun a ha => List.mem_append_left _ ha) hs hn (fun f hf s hv => ?_) env,
    fun a ha => run_sorted _ env hs hn a (List.mem_append_right _ ha)⟩
  show s ∉ (subsDict force ++ sub).map Prod.fst
  rw [List.map_append, List.mem_append, not_or, ← replaced_iff]
  exact ⟨hc f hf s hv, hin f hf s hv⟩

/-- **C96, negative part** If the symbol `F_j` is given as another component `i` and the `j`-th component is not a symbol, the kernel
uses the `j`-th component in both places. -/
theorem C96_capture [Field K] (force : List (Term K)) (i j : ℕ) (name : String) (f : Term K) (hi : i < 3)
    (hname : Spec.StandsFor name j) (hfi : force[i]? = some (.sym name)) (hfj : force[j]? = some f) (hf : ∀ s, f ≠ .sym s)
    (l : List (String × Term K)) (hl : ∀ a ∈ subsDict force, a ∈ l) (hs : Sorted l) (hn : (l.map Prod.fst).Nodup)
    (env : String → K) :
    (symbolicForce force)[i]? = some name ∧ (symbolicForce force)[j]? = some name ∧
      run l env name = f.eval (run l env) := by
  refine ⟨?_, ?_, ?_⟩
  · rw [symbolicForce, List.getElem?_zipWith, hfi]
    interval_cases i <;> rfl
  · have hsy : f.isSymbol = false := by
      by_contra h
      obtain ⟨s, hs⟩ := (isSymbol_iff f).1 (by simpa using h)
      exact hf s hs
    rw [symbolicForce, List.getElem?_zipWith, hfj]
    rcases hname with ⟨rfl, rfl⟩ | ⟨rfl, rfl⟩ | ⟨rfl, rfl⟩ <;> simp [forceSymbols, symbolOf_of_not _ _ hsy]
  · exact run_sorted l env hs hn (name, f) (hl _ ((mem_subsDict force name f).2 ⟨j, hname, hfj, hf⟩))

theorem not_sorted (l : List (String × Term K)) (a : String × Term K) (ha : a ∈ l) (hv : a.1 ∈ a.2.vars) : ¬ Sorted l := by
  induction l with
  | nil => simp at ha
  | cons b l ih =>
    intro hs
    rcases List.mem_cons.1 ha with rfl | hm
    · exact (hs.1 _ hv).1 rfl
    · exact ih hm hs.2

/-- **C96, negative part** If a component that is not a symbol mentions the name that stands for it, no order of assignments is
sorted: the collection is cyclic. -/
theorem C96_cycle (force : List (Term K)) (j : ℕ) (name : String) (f : Term K) (hname : Spec.StandsFor name j)
    (hfj : force[j]? = some f) (hf : ∀ s, f ≠ .sym s) (hv : name ∈ f.vars) (l : List (String × Term K))
    (hl : ∀ a ∈ subsDict force, a ∈ l) : ¬ Sorted l := by
  have hm := hl _ ((mem_subsDict force name f).2 ⟨j, hname, hfj, hf⟩)
  exact not_sorted l _ hm hv

/-- **C96, negative part** A force in partially saturated cells that mentions the name standing for it makes the collection cyclic,
even if it is that plain symbol, since the scaled component is a product. -/
theorem C96_saturated_cycle [Field K] (b : String) (force : List (Term K)) (j : ℕ) (name : String) (f : Term K)
    (hname : Spec.StandsFor name j) (hfj : force[j]? = some f) (hv : name ∈ f.vars) (l : List (String × Term K))
    (hl : ∀ a ∈ subsDict (scaleByFraction b force), a ∈ l) : ¬ Sorted l := by
  refine C96_cycle (scaleByFraction b force) j name (.mul (.add (.num 1) (.mul (.num (-1)) (.sym b))) f) hname ?_
    (fun s h => ?_) ?_ l hl
  · rw [scaleByFraction, List.getElem?_map, hfj]; rfl
  · cases h
  · simp [Term.vars, hv]

/-- **C96** Scaling by the fluid fraction multiplies every component by one minus the solid fraction. -/
theorem C96_saturated [Field K] (b : String) (force : List (Term K)) (env : String → K) :
    (scaleByFraction b force).map (Term.eval env) = force.map fun f => (1 - env b) * f.eval env := by
  rw [scaleByFraction, List.map_map]
  refine List.map_congr_left fun f _ => ?_
  simp only [Function.comp, Term.eval]
  ring

/-- **C96** More than three components are cut off. -/
theorem C96_truncated (force : List (Term K)) : (symbolicForce force).length = min force.length 3 := by
  simp [symbolicForce, forceSymbols]

end force

/-! ### Examples -/

section examples

/-- the force `(fx, rho * g)` with a symbol `fx` is free of clashes -/
def gravity : List (Term ℚ) := [.sym "fx", .mul (.sym "rho") (.sym "g")]

example : symbolicForce gravity = ["fx", "F_y"] := rfl

example : Spec.ClashFree gravity := by
  intro f hf s hs
  rw [replaced_iff]
  fin_cases hf <;> simp [Term.vars] at hs
  · subst hs; decide
  · rcases hs with rfl | rfl <;> decide

/-- subexpressions that use the force `(fx, g * g)` -/
example : Sorted (addSubstitutions [("a", .mul (.sym "F_y") (.num 2)), ("b", .add (.sym "a") (.sym "fx"))]
    ([.sym "fx", .mul (.sym "g") (.sym "g")] : List (Term ℚ))) ∧
    ¬ Sorted ([("a", .mul (.sym "F_y") (.num 2)), ("F_y", .mul (.sym "g") (.sym "g"))] : List (String × Term ℚ)) := by
  refine ⟨?_, ?_⟩
  · simp [addSubstitutions, subsDict, symbolicForce, forceSymbols, symbolOf, differs, insertKey, Sorted, Term.vars]
  · simp [Sorted, Term.vars]

/-- a collection that also assigns the density, which the force needs: the substitution comes after it -/
def withDensity : List (String × Term ℚ) :=
  [("rho", .add (.sym "f_0") (.sym "f_1")), ("F_y", .mul (.sym "rho") (.sym "g")), ("u_1", .mul (.sym "F_y") (.inv (.sym "rho")))]

example : (∀ a ∈ subsDict gravity, a ∈ withDensity) ∧ Sorted withDensity ∧ (withDensity.map Prod.fst).Nodup := by
  refine ⟨fun a ha => ?_, ?_, by decide⟩
  · have : a = ("F_y", .mul (.sym "rho") (.sym "g")) := by simpa [subsDict, gravity, symbolicForce, forceSymbols, symbolOf, differs,
      insertKey] using ha
    subst this
    simp [withDensity]
  · simp [Sorted, withDensity, Term.vars]

/-- the force `(F_y, 1/10)` -/
def captured : List (Term ℚ) := [.sym "F_y", .num (1 / 10)]

/-- **C96, negative part** The symbol `F_y` as first component loses its value. -/
theorem C96_capture_witness :
    symbolicForce captured = ["F_y", "F_y"] ∧
      (symbolicForce captured).map (run (subsDict captured) fun _ => 7) = [1 / 10, 1 / 10] ∧
      captured.map (Term.eval fun _ => 7) = [7, 1 / 10] := by
  refine ⟨rfl, ?_, ?_⟩
  · simp [captured, symbolicForce, forceSymbols, symbolOf, subsDict, differs, insertKey, run, Term.eval]
  · simp [captured, Term.eval]

example : ¬ Spec.ClashFree captured := fun h =>
  h (.sym "F_y") (by simp [captured]) "F_y" (by simp [Term.vars]) ⟨1, .num (1 / 10), by simp [Spec.StandsFor], rfl, fun s hs => by cases hs⟩

/-- the force `(2 F_x, 0)` of `C96_cycle` -/
example (l : List (String × Term ℚ)) (hl : ∀ a ∈ subsDict [.mul (.num 2) (.sym "F_x"), .num (0 : ℚ)], a ∈ l) : ¬ Sorted l :=
  C96_cycle _ 0 "F_x" _ (by simp [Spec.StandsFor]) rfl (fun s h => by cases h) (by simp [Term.vars]) l hl

/-- the force `(F_x, F_y)` of plain symbols is fine without and cyclic with a fraction field -/
example : subsDict ([.sym "F_x", .sym "F_y"] : List (Term ℚ)) = [] ∧
    ∀ l, (∀ a ∈ subsDict (scaleByFraction "B" ([.sym "F_x", .sym "F_y"] : List (Term ℚ))), a ∈ l) → ¬ Sorted l :=
  ⟨by simp [subsDict, symbolicForce, forceSymbols, symbolOf, differs],
    C96_saturated_cycle "B" _ 1 "F_y" _ (by simp [Spec.StandsFor]) rfl (by simp [Term.vars])⟩

end examples
end SymbolicForce
end Lbm
