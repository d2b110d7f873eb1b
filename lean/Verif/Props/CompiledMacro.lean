/-
Property theorems C100: the compiled getters and setters of macroscopic values.
-/
import Verif.CompiledMacro
import Verif.Props.HydroMethods
import Verif.Props.Streaming
import Verif.Communication
import Mathlib.Data.Fintype.Pi
import Mathlib.Data.Int.Interval
import Mathlib.Order.Interval.Finset.Basic

namespace Lbm

open Spec

namespace CompiledMacro

variable {K : Type} {D Q : ℕ}

/-! ### Specification -/

/-- the list contains exactly these cells, in any order -/
def Enumerates (cells : List (Vec D)) (P : Vec D → Prop) : Prop := ∀ x, x ∈ cells ↔ P x

/-- the cell is at least `n` layers away from the rim of an array of shape `L` -/
def Core (n : ℕ) (L : Fin D → ℕ) (x : Vec D) : Prop := ∀ a, (n : ℤ) ≤ x a ∧ x a < L a - n

/-- a correct setting of populations: the populations of density and velocity have this density and velocity -/
def SetsMacro [Field K] (eq : K → (Fin D → K) → Fin Q → K) (cq : Cqc K D) (csSq : K) (c : Fin Q → Fin D → K) : Prop :=
  ∀ density velocity, cq.reference density ≠ 0 → (cq.output csSq c (eq density velocity)).density = density ∧
    (cq.output csSq c (eq density velocity)).densityDeviation = density - cq.rho0 ∧
    (cq.output csSq c (eq density velocity)).velocity = velocity

/-! ### Helpers -/

theorem layers_le (o : Vec D) (a : Fin D) : |o a| ≤ (GhostLayers.layers o : ℤ) := by
  have : (o a).natAbs ≤ GhostLayers.layers o := Finset.le_sup (f := fun i => (o i).natAbs) (Finset.mem_univ a)
  rw [Int.abs_eq_natAbs]
  exact_mod_cast this

theorem le_needs (acc : Fin Q → Access D Q) (i : Fin Q) (a : Fin D) : |(acc i).1 a| ≤ (needs acc : ℤ) := by
  have h : GhostLayers.layers (acc i).1 ≤ needs acc :=
    Finset.le_sup (f := fun i => GhostLayers.layers (acc i).1) (Finset.mem_univ i)
  have := layers_le (acc i).1 a
  omega

theorem needs_le {acc : Fin Q → Access D Q} {n : ℕ} (h : ∀ i a, |(acc i).1 a| ≤ (n : ℤ)) : needs acc ≤ n := by
  refine Finset.sup_le fun i _ => Finset.sup_le fun a _ => ?_
  have := h i a
  rw [Int.abs_eq_natAbs] at this
  exact_mod_cast this

theorem writeAccesses_ok {S : Stencil D} {p : String} {ts : Timestep} {wr : Fin S.Q → Access D S.Q}
    (h : writeAccesses S p ts = .ok wr) : ∃ a, getAccessor D p ts = some a ∧ a.write S = some wr := by
  unfold writeAccesses at h
  split at h
  · cases h
  · rename_i a ha
    split at h
    · cases h
    · rename_i w hw
      cases h
      exact ⟨a, ha, hw⟩

theorem compileSetter_ok [Zero K] [One K] {S : Stencil D} {p : String} {ts : Timestep} {g : Given K D} {cfg : Config D}
    {k : Kernel D S.Q} {v : Vec D → K × (Fin D → K)} (h : compileSetter S p ts g cfg = .ok (k, v)) :
    g.values = .ok v ∧ writeAccesses S p ts = .ok k.acc ∧ k.config = ⟨none, none⟩ := by
  unfold compileSetter at h
  split at h
  · cases h
  · rename_i v' hv
    rcases hw : writeAccesses S p ts with e | acc
    · rw [hw] at h; cases h
    · rw [hw] at h
      cases h
      exact ⟨hv, rfl, rfl⟩

theorem compileGetter_ok {S : Stencil D} {p : String} {ts : Timestep} {names : List String} {cfg : Config D}
    {k : Kernel D S.Q} (h : compileGetter S p ts names cfg = .ok k) :
    (∀ n ∈ names, n ∈ conservedQuantities) ∧ writeAccesses S p ts = .ok k.acc ∧ k.config = cfg := by
  unfold compileGetter at h
  split at h
  · cases h
  · rename_i hn
    rcases hw : writeAccesses S p ts with e | acc
    · rw [hw] at h; cases h
    · rw [hw] at h
      cases h
      exact ⟨by simpa using hn, rfl, rfl⟩

theorem setter_cells [Zero K] [One K] {S : Stencil D} {p : String} {ts : Timestep} {g : Given K D} {cfg : Config D}
    {k : Kernel D S.Q} {v : Vec D → K × (Fin D → K)} (h : compileSetter S p ts g cfg = .ok (k, v)) (L : Fin D → ℕ)
    (x : Vec D) : k.Cells L x ↔ Core (needs k.acc) L x := by
  unfold Kernel.Cells Config.Inside
  rw [(compileSetter_ok h).2.2]
  rfl

/-! ### C100 -/

/-- C100: for every streaming pattern and time step of it, density and velocity are all the names that can be set, and they can
be left out; the values set are those given, else 1 and 0. -/
theorem C100_setter_compiles [Zero K] [One K] {S : Stencil D} {p : String} (hs : Supported S p) {ts : Timestep}
    (ht : TsOk p ts) (g : Given K D) (cfg : Config D) :
    (g.others = [] → ∃ k, compileSetter S p ts g cfg =
      .ok (k, fun x => (g.density.elim 1 (· x), g.velocity.elim 0 (· x)))) ∧
    (g.others ≠ [] → ∃ e, compileSetter S p ts g cfg = .error e) := by
  obtain ⟨a, rd, wr, rd', F⟩ := stepFacts hs ht
  have hw : writeAccesses S p ts = .ok wr := by simp [writeAccesses, F.acc, F.write]
  constructor
  · intro h
    exact ⟨⟨⟨none, none⟩, wr⟩, by simp [compileSetter, Given.values, h, hw, Except.map]⟩
  · intro h
    unfold compileSetter Given.values
    split_ifs
    · exact ⟨_, rfl⟩
    · exact ⟨_, rfl⟩

/-- C100: the setter stores the populations of the given values in every cell whose accesses do not leave the array, in whatever order
the cells are treated, and nothing else. -/
theorem C100_setter [Zero K] [One K] {S : Stencil D} {p : String} (hs : Supported S p) {ts : Timestep}
    (ht : TsOk p ts) (g : Given K D) (cfg : Config D) {k : Kernel D S.Q} {v : Vec D → K × (Fin D → K)}
    (hk : compileSetter S p ts g cfg = .ok (k, v)) (eq : K → (Fin D → K) → Fin S.Q → K) (L : Fin D → ℕ)
    {cells : List (Vec D)} (hc : Enumerates cells (k.Cells L)) (arr : Vec D × Fin S.Q → K) :
    (∀ x, Core (needs k.acc) L x → ∀ i,
      runSetter k eq v cells arr (loc (.id _) x (k.acc i)) = eq (v x).1 (v x).2 i) ∧
    (∀ s, (∀ x i, Core (needs k.acc) L x → s ≠ loc (.id _) x (k.acc i)) → runSetter k eq v cells arr s = arr s) ∧
    (∀ x i, Core (needs k.acc) L x → ∀ a, 0 ≤ (loc (.id _) x (k.acc i)).1 a ∧ (loc (.id _) x (k.acc i)).1 a < L a) := by
  obtain ⟨a, rd, wr, rd', F⟩ := stepFacts hs ht
  obtain ⟨hv, hw, hcfg⟩ := compileSetter_ok hk
  obtain ⟨a', h1, h2⟩ := writeAccesses_ok hw
  rw [F.acc] at h1
  cases h1
  rw [F.write] at h2
  have hwr : wr = k.acc := Option.some.inj h2
  have hinj : Function.Injective fun i => (k.acc i).2 := hwr ▸ F.wr_inj
  have hmem : ∀ x, x ∈ cells ↔ Core (needs k.acc) L x := fun x => (hc x).trans (setter_cells hk L x)
  refine ⟨fun x hx i => ?_, fun s hsn => ?_, fun x i hx a => ?_⟩
  · exact sweepTwo_mem (.id _) _ hinj cells arr arr x ((hmem x).2 hx) i
  · exact sweepTwo_other (.id _) _ cells arr arr s fun x hx i => hsn x i ((hmem x).1 hx)
  · have hb := le_needs k.acc i a
    have hx' := hx a
    rw [abs_le] at hb
    simp only [loc, AddMonoidHom.id_apply, Pi.add_apply]
    constructor <;> omega

/-- C100: what the setter sets, the getter reads: for every streaming pattern, in every cell that both treat, the requested quantities
are the ones that were given; nothing else is written. -/
theorem C100_round_trip [Field K] {S : Stencil D} {p : String} (hs : Supported S p) {ts : Timestep}
    (ht : TsOk p ts) (g : Given K D) (cfgS cfgG : Config D) {kS kG : Kernel D S.Q} {v : Vec D → K × (Fin D → K)}
    (hS : compileSetter S p ts g cfgS = .ok (kS, v)) {names kwargs : List String}
    (hG : compileGetter S p ts names cfgG = .ok kG) (hn : ∀ n ∈ names, n ∈ kwargs)
    (eq : K → (Fin D → K) → Fin S.Q → K) (cq : Cqc K D) (csSq : K) (c : Fin S.Q → Fin D → K)
    (heq : SetsMacro eq cq csSq c) (L : Fin D → ℕ) {cellsS cellsG : List (Vec D)}
    (hcS : Enumerates cellsS (kS.Cells L)) (hcG : Enumerates cellsG (kG.Cells L)) (arr : Vec D × Fin S.Q → K)
    (out : Outputs K D) :
    ∃ o, runGetter kG names kwargs cq csSq c cellsG (runSetter kS eq v cellsS arr) out = .ok o ∧
      (∀ x, Core (needs kS.acc) L x → cfgG.Inside (needs kG.acc) L x → cq.reference (v x).1 ≠ 0 →
        ("density" ∈ names → o.density x = (v x).1) ∧
        ("density_deviation" ∈ names → o.densityDeviation x = (v x).1 - cq.rho0) ∧
        ("velocity" ∈ names → o.velocity x = (v x).2)) ∧
      (∀ x, ¬ cfgG.Inside (needs kG.acc) L x →
        o.density x = out.density x ∧ o.densityDeviation x = out.densityDeviation x ∧ o.velocity x = out.velocity x) ∧
      ("density" ∉ names → o.density = out.density) ∧ ("density_deviation" ∉ names → o.densityDeviation = out.densityDeviation) ∧
      ("velocity" ∉ names → o.velocity = out.velocity) := by
  obtain ⟨-, hwS, -⟩ := compileSetter_ok hS
  obtain ⟨-, hwG, hcfg⟩ := compileGetter_ok hG
  have hacc : kG.acc = kS.acc := by rw [hwS] at hwG; exact (Except.ok.inj hwG).symm
  obtain ⟨h1, -, -⟩ := C100_setter hs ht g cfgS hS eq L hcS arr
  have hmem : ∀ x, x ∈ cellsG ↔ cfgG.Inside (needs kG.acc) L x := fun x => by rw [hcG x, Kernel.Cells, hcfg]
  have hany : names.any (· ∉ kwargs) = false := by simpa using hn
  refine ⟨_, by unfold runGetter; rw [if_neg (by rw [hany]; simp)], fun x hx hi hr => ?_, fun x hx => ?_, fun h => ?_, fun h => ?_, fun h => ?_⟩
  · have hf : (fun i => runSetter kS eq v cellsS arr (loc (.id _) x (kG.acc i))) = eq (v x).1 (v x).2 := by
      funext i
      rw [hacc]
      exact h1 x hx i
    obtain ⟨e1, e2, e3⟩ := heq (v x).1 (v x).2 hr
    have hx' := (hmem x).2 hi
    refine ⟨fun h => ?_, fun h => ?_, fun h => ?_⟩
    · simp only [h, hx', and_self, if_true, hf, e1]
    · simp only [h, hx', and_self, if_true, hf, e2]
    · simp only [h, hx', and_self, if_true, hf, e3]
  · have hx' : x ∉ cellsG := fun h => hx ((hmem x).1 h)
    simp [hx']
  · simp [h]
  · simp [h]
  · simp [h]

/-- C100: the populations of every method whose equilibrium has the right density and momentum are set correctly (C21), with
any force model. -/
theorem C100_setsMacro {P : Type} [Field K] [CharZero K] [DecidableEq K] [DecidableEq P] {m : MomentMethod K P Q}
    {h : m.relax.length = Q} {c : Fin Q → Fin D → K} {meqOf : Macro K D → P → K} {cq : Cqc K D} {i0 : Fin Q} {i : Fin D → Fin Q}
    (H : Hydrodynamic m h c meqOf cq i0 i) (hw : m.WellFormed) (csSq : K) :
    ∃ eq, (∀ density velocity, cq.reference density ≠ 0 → setter m meqOf cq density velocity = .ok (eq density velocity)) ∧
      SetsMacro eq cq csSq c := by
  classical
  have key := fun d v (hr : cq.reference d ≠ 0) => C21_round_trip H hw d csSq v hr
  refine ⟨fun d v => if hr : cq.reference d ≠ 0 then (key d v hr).choose else 0, fun d v hr => ?_, fun d v hr => ?_⟩
  · simp only [hr, ne_eq, not_false_eq_true, dite_true]
    exact (key d v hr).choose_spec.1
  · simp only [hr, ne_eq, not_false_eq_true, dite_true]
    obtain ⟨-, a1, a2, a3, -⟩ := (key d v hr).choose_spec
    exact ⟨a1, a2, a3⟩

/-- C100: with the default `ghost_layers=1`, the getter of a stencil with neighbours only never reads outside of the array. -/
theorem C100_getter_in_bounds {S : Stencil D} {p : String} {ts : Timestep} {names : List String} {k : Kernel D S.Q}
    (hk : compileGetter S p ts names .default = .ok k) (h1 : ∀ i a, |S.c i a| ≤ 1) (L : Fin D → ℕ) (x : Vec D)
    (hx : k.Cells L x) (i : Fin S.Q) (a : Fin D) :
    0 ≤ (loc (.id _) x (k.acc i)).1 a ∧ (loc (.id _) x (k.acc i)).1 a < L a := by
  obtain ⟨-, hw, hcfg⟩ := compileGetter_ok hk
  obtain ⟨ac, g1, g2⟩ := writeAccesses_ok hw
  unfold Kernel.Cells Config.Inside at hx
  rw [hcfg] at hx
  have hx' := hx a
  have h1' := abs_le.1 (h1 i a)
  simp only [loc, AddMonoidHom.id_apply, Pi.add_apply]
  push_cast at hx'
  rcases wr_box g1 g2 i a with h | h <;> rw [h] <;> constructor <;> omega

/-! ### Disagreements -/

/-- C100, a disagreement: the arguments `ghost_layers` and `iteration_slice` of the setter have no effect. With the pull pattern, every
cell of the array is set, ghost layers included, whatever the arguments are. -/
theorem C100_setter_sets_ghost_layers [Zero K] [One K] {S : Stencil D} (hv : S.Valid) (g : Given K D) (cfg : Config D)
    {k : Kernel D S.Q} {v : Vec D → K × (Fin D → K)} (hk : compileSetter S "pull" .both g cfg = .ok (k, v))
    (eq : K → (Fin D → K) → Fin S.Q → K) (L : Fin D → ℕ) {cells : List (Vec D)} (hc : Enumerates cells (k.Cells L))
    (arr : Vec D × Fin S.Q → K) (x : Vec D) (hx : ∀ a, 0 ≤ x a ∧ x a < L a) (i : Fin S.Q) :
    runSetter k eq v cells arr (x, i) = eq (v x).1 (v x).2 i := by
  have hs : Supported S "pull" := ⟨by decide, hv, fun h => absurd h (by decide), fun h => absurd h (by decide)⟩
  have ht : TsOk "pull" .both := ⟨[.both], by decide, by decide⟩
  obtain ⟨h1, -, -⟩ := C100_setter hs ht g cfg hk eq L hc arr
  obtain ⟨-, hw, -⟩ := compileSetter_ok hk
  obtain ⟨a, g1, g2⟩ := writeAccesses_ok hw
  have ha : a = pull := by
    have : getAccessor D "pull" .both = some pull := by simp [getAccessor, isInplace, streamingPatterns, oddAccessors]
    rw [this] at g1
    exact (Option.some.inj g1).symm
  subst ha
  have hacc : ∀ i, k.acc i = (0, i) := fun i => by
    have := collect_eq_some.1 g2 i
    exact (Option.some.inj this).symm
  have hn : needs k.acc = 0 := Nat.le_zero.1 (needs_le fun i a => by rw [hacc i]; simp)
  have := h1 x (by intro a; have := hx a; rw [hn]; simpa using this) i
  rw [hacc i] at this
  simpa [loc] using this

/-- the documented meaning of the arguments: no population of a cell outside of the cells they select is changed -/
def Excludes [Zero K] [One K] (S : Stencil D) (p : String) (ts : Timestep) (g : Given K D) (cfg : Config D) (L : Fin D → ℕ) : Prop :=
  ∀ k v, compileSetter S p ts g cfg = .ok (k, v) → ∀ eq cells, Enumerates cells (k.Cells L) → ∀ (arr : Vec D × Fin S.Q → K) x,
    ¬ cfg.Inside (needs k.acc) L x → ∀ i, runSetter k eq v cells arr (loc (.id _) x (k.acc i)) = arr (loc (.id _) x (k.acc i))

/-- C100 in part: cells outside are left alone if the arguments select all cells whose accesses do not leave the array. Missing: other
arguments; false of the code, see `C100_setter_ignores_arguments`. -/
theorem C100_setter_excludes_partial [Zero K] [One K] {S : Stencil D} {p : String} (hs : Supported S p) {ts : Timestep}
    (ht : TsOk p ts) (g : Given K D) (cfg : Config D) (L : Fin D → ℕ)
    (hall : ∀ k v, compileSetter S p ts g cfg = .ok (k, v) → ∀ x, Core (needs k.acc) L x → cfg.Inside (needs k.acc) L x) :
    Excludes S p ts g cfg L := by
  intro k v hk eq cells hc arr x hx i
  obtain ⟨a, rd, wr, rd', F⟩ := stepFacts hs ht
  obtain ⟨-, hw, -⟩ := compileSetter_ok hk
  obtain ⟨a', h1, h2⟩ := writeAccesses_ok hw
  rw [F.acc] at h1
  cases h1
  rw [F.write] at h2
  have hinj : Function.Injective fun i => (k.acc i).2 := by rw [← Option.some.inj h2]; exact F.wr_inj
  refine (C100_setter hs ht g cfg hk eq L hc arr).2.1 _ fun y j hy he => hx ?_
  obtain ⟨rfl, -⟩ := loc_inj _ hinj he
  exact hall k v hk x hy

theorem exists_cells (n : ℕ) (L : Fin D → ℕ) : ∃ cells, Enumerates cells (Core n L) := by
  refine ⟨(Fintype.piFinset fun a => Finset.Ico (n : ℤ) (L a - n)).toList, fun x => ?_⟩
  simp [Core]

/-- C100, a disagreement: with the pull pattern, the cells that the arguments leave out are left alone only if they leave out none. -/
theorem C100_setter_ignores_arguments [Zero K] [One K] [NeZero (1 : K)] {S : Stencil D} (hv : S.Valid) (hQ : 0 < S.Q)
    (g : Given K D) (hg : g.others = []) (cfg : Config D) (L : Fin D → ℕ) :
    Excludes S "pull" .both g cfg L ↔ ∀ x : Vec D, (∀ a, 0 ≤ x a ∧ x a < L a) → cfg.Inside 0 L x := by
  have hs : Supported S "pull" := ⟨by decide, hv, fun h => absurd h (by decide), fun h => absurd h (by decide)⟩
  have ht : TsOk "pull" .both := ⟨[.both], by decide, by decide⟩
  have hzero : ∀ k v, compileSetter S "pull" .both g cfg = .ok (k, v) → needs k.acc = 0 ∧ ∀ i, k.acc i = (0, i) := by
    intro k v hk
    obtain ⟨-, hw, -⟩ := compileSetter_ok hk
    obtain ⟨a, g1, g2⟩ := writeAccesses_ok hw
    have ha : a = pull := by
      have : getAccessor D "pull" .both = some pull := by simp [getAccessor, isInplace, streamingPatterns, oddAccessors]
      rw [this] at g1
      exact (Option.some.inj g1).symm
    subst ha
    have hacc : ∀ i, k.acc i = (0, i) := fun i => by
      have := collect_eq_some.1 g2 i
      exact (Option.some.inj this).symm
    exact ⟨Nat.le_zero.1 (needs_le fun i a => by rw [hacc i]; simp), hacc⟩
  constructor
  · intro h x hx
    by_contra hout
    obtain ⟨k, hk⟩ := (C100_setter_compiles hs ht g cfg).1 hg
    obtain ⟨hn, hacc⟩ := hzero k _ hk
    obtain ⟨cells, hc⟩ := exists_cells 0 L
    have hc' : Enumerates cells (k.Cells L) := fun y => by rw [hc y, setter_cells hk, hn]
    have h1 := h k _ hk (fun _ _ _ => 1) cells hc' (fun _ => 0) x (by rw [hn]; exact hout) ⟨0, hQ⟩
    have h2 := C100_setter_sets_ghost_layers hv g cfg hk (fun _ _ _ => 1) L hc' (fun _ => 0) x hx ⟨0, hQ⟩
    rw [hacc] at h1
    simp only [loc, AddMonoidHom.id_apply, add_zero] at h1
    rw [h2] at h1
    exact one_ne_zero h1
  · intro h
    refine C100_setter_excludes_partial hs ht g cfg L fun k v hk x hx => ?_
    rw [(hzero k v hk).1] at hx ⊢
    exact h x fun a => by simpa using hx a

/-- C100, a disagreement: the density deviation is among the conserved quantities and the getter computes it, but the setter, documented
to take a map from conserved quantities, fails. -/
theorem C100_density_deviation [Zero K] [One K] {S : Stencil D} {p : String} (hs : Supported S p) {ts : Timestep} (ht : TsOk p ts)
    (g : Given K D) (b : Bool) (hg : g.others = [("density_deviation", b)]) (cfg : Config D) :
    (∃ k, compileGetter S p ts ["density_deviation"] cfg = .ok k) ∧ compileSetter S p ts g cfg = .error .typeError := by
  obtain ⟨a, rd, wr, rd', F⟩ := stepFacts hs ht
  have hw : writeAccesses S p ts = .ok wr := by simp [writeAccesses, F.acc, F.write]
  constructor
  · exact ⟨⟨cfg, wr⟩, by simp [compileGetter, conservedQuantities, hw, Except.map]⟩
  · simp [compileSetter, Given.values, hg, conservedQuantities]

/-- C100: getters exist exactly for conserved quantities, and want an array for each of them. -/
theorem C100_getter_names [Field K] {S : Stencil D} {p : String} (hs : Supported S p) {ts : Timestep} (ht : TsOk p ts)
    (names kwargs : List String) (cfg : Config D) :
    ((∃ n ∈ names, n ∉ conservedQuantities) → compileGetter S p ts names cfg = .error .valueError) ∧
    ((∀ n ∈ names, n ∈ conservedQuantities) → ∃ k, compileGetter S p ts names cfg = .ok k ∧
      ∀ (cq : Cqc K D) csSq (c : Fin S.Q → Fin D → K) cells arr out,
        (∃ o, runGetter k names kwargs cq csSq c cells arr out = .ok o) ↔ ∀ n ∈ names, n ∈ kwargs) := by
  obtain ⟨a, rd, wr, rd', F⟩ := stepFacts hs ht
  have hw : writeAccesses S p ts = .ok wr := by simp [writeAccesses, F.acc, F.write]
  constructor
  · rintro ⟨n, h1, h2⟩
    unfold compileGetter
    rw [if_pos (List.any_eq_true.2 ⟨n, h1, by simpa using h2⟩)]
  · intro h
    have : names.any (· ∉ conservedQuantities) = false := by simpa using h
    refine ⟨⟨cfg, wr⟩, by simp only [compileGetter, this, hw]; rfl, fun cq csSq c cells arr out => ?_⟩
    unfold runGetter
    by_cases hk : ∀ n ∈ names, n ∈ kwargs
    · have : names.any (· ∉ kwargs) = false := by simpa using hk
      rw [if_neg (by rw [this]; simp)]
      exact ⟨fun _ => hk, fun _ => ⟨_, rfl⟩⟩
    · have : names.any (· ∉ kwargs) = true := by
        push Not at hk
        obtain ⟨n, h1, h2⟩ := hk
        exact List.any_eq_true.2 ⟨n, h1, by simpa using h2⟩
      rw [if_pos this]
      exact ⟨fun ⟨_, h⟩ => absurd h (by simp), fun h => absurd h hk⟩

/-- C100: with their default `previous_timestep=Timestep.BOTH`, neither can be compiled for an in-place pattern. -/
theorem C100_inplace_needs_timestep [Zero K] [One K] (S : Stencil D) {p : String} (hp : isInplace p = some true) (g : Given K D)
    (hg : g.others = []) (names : List String) (cfg : Config D) :
    compileSetter S p .both g cfg = .error .valueError ∧ compileGetter S p .both names cfg = .error .valueError := by
  have hacc : getAccessor D p .both = none := by
    unfold getAccessor
    by_cases h : p ∈ streamingPatterns <;> simp [hp, h]
  have hw : writeAccesses S p .both = .error .valueError := by simp [writeAccesses, hacc]
  constructor
  · simp [compileSetter, Given.values, hg, hw, Except.map]
  · unfold compileGetter
    split_ifs
    · rfl
    · rw [hw]; rfl

/-! ### The predefined stencils -/

/-- the stencil with the entries of a table -/
def tableStencil (st : List (List ℤ)) : Stencil (st.headD []).length := ⟨st.length, fun q a => (st.get q).getD a 0⟩

theorem table_supported : ∀ e ∈ Tables.predefined, (∀ p ∈ ["pull", "push", "aa", "esotwist"], Supported (tableStencil e.2.2) p) ∧
    (e.2.2.length ∈ [9, 15, 19, 27] → ∀ p ∈ streamingPatterns, Supported (tableStencil e.2.2) p) := by decide +kernel

/-- C100 for the methods with the discrete Maxwellian on the predefined stencils: any offered moments, rates, force model, storage
and streaming pattern. -/
theorem C100_predefined [Field K] [CharZero K] [DecidableEq K] : ∀ e ∈ Tables.predefined, ∀ (o : MaxwellOptions K e.2.2)
    (cq : Cqc K (e.2.2.headD []).length), o.Valid cq → ∀ p, Supported (tableStencil e.2.2) p → ∀ ts, TsOk p ts →
    ∀ (g : Given K (e.2.2.headD []).length), g.others = [] → ∀ cfgS cfgG csSq,
    ∃ (eq : K → (Fin (e.2.2.headD []).length → K) → Fin e.2.2.length → K) (kS kG : Kernel _ e.2.2.length) (v : _),
      (∀ density velocity, cq.reference density ≠ 0 →
        setter (o.method cq) (o.meqOf cq.compressible) cq density velocity = .ok (eq density velocity)) ∧
      compileSetter (tableStencil e.2.2) p ts g cfgS = .ok (kS, v) ∧
      compileGetter (tableStencil e.2.2) p ts ["density", "velocity"] cfgG = .ok kG ∧
      ∀ L cellsS cellsG, Enumerates cellsS (kS.Cells L) → Enumerates cellsG (kG.Cells L) → ∀ arr out,
        ∃ o', runGetter kG ["density", "velocity"] ["velocity", "density"] cq csSq (vel e.2.2 _) cellsG
            (runSetter kS eq v cellsS arr) out = .ok o' ∧
          ∀ x, kS.Cells L x → kG.Cells L x → (cq.compressible = true → (v x).1 ≠ 0) →
            o'.density x = g.density.elim 1 (· x) ∧ o'.velocity x = g.velocity.elim 0 (· x) := by
  intro e he o cq hv p hs ts ht g hg cfgS cfgG csSq
  have hw := o.wellFormed he cq hv
  obtain ⟨i0, i, H, -⟩ := o.hydrodynamic he cq hv hw.1.1
  obtain ⟨eq, h1, h2⟩ := C100_setsMacro H hw csSq
  obtain ⟨kS, hkS⟩ := (C100_setter_compiles hs ht g cfgS).1 hg
  obtain ⟨kG, hkG, -⟩ := (C100_getter_names (K := K) hs ht ["density", "velocity"] [] cfgG).2 (by decide)
  refine ⟨eq, kS, kG, _, h1, hkS, hkG, fun L cellsS cellsG hcS hcG arr out => ?_⟩
  obtain ⟨o', ho, hr, -⟩ := C100_round_trip hs ht g cfgS cfgG hkS hkG (kwargs := ["velocity", "density"]) (by decide) eq cq csSq
    (vel e.2.2 _) h2 L hcS hcG arr out
  refine ⟨o', ho, fun x hx hx' hne => ?_⟩
  have href : cq.reference (g.density.elim 1 (· x)) ≠ 0 := by
    unfold Cqc.reference
    rcases hc : cq.compressible
    · simp [hv.rho0]
    · simpa using hne hc
  have hcfg := (compileGetter_ok hkG).2.2
  obtain ⟨r1, -, r3⟩ := hr x ((setter_cells hkS L x).1 hx) (by rw [← hcfg]; exact hx') href
  exact ⟨r1 (by decide), r3 (by decide)⟩

/-! ### Examples -/

/-- the hypotheses of the round trip are met by the method of `HydroMethods` and every pattern -/
example : ("D2Q9", "uk", ForceExample.st) ∈ Tables.predefined ∧ ForceExample.o.Valid ForceExample.cq ∧
    (∀ p ∈ streamingPatterns, Supported (tableStencil ForceExample.st) p) ∧ TsOk "esotwist" .odd :=
  ⟨by decide +kernel, ForceExample.valid, by decide +kernel, ⟨[.even, .odd], by decide, by decide⟩⟩

/-- the disagreement: in a 4 × 4 array the corner cell is left out by `ghost_layers=1`, but set -/
example : ¬ Excludes (K := ℚ) exStencil "pull" .both ⟨none, none, []⟩ .default (fun _ => 4) := by
  rw [C100_setter_ignores_arguments (by decide +kernel) (by decide) _ rfl]
  intro h
  have := (h (fun _ => 0) (by decide)) 0
  revert this
  decide

/-- with the push pattern the setter leaves out one layer, by itself -/
example : ∃ k v, compileSetter (K := ℚ) exStencil "push" .both ⟨none, none, []⟩ ⟨none, none⟩ = .ok (k, v) ∧ needs k.acc = 1 :=
  ⟨⟨⟨none, none⟩, fun i => (exStencil.c i, i)⟩, _, rfl, by decide +kernel⟩

/-- with a wide stencil, the default `ghost_layers=1` of the getter makes it read outside of the array -/
example : ∃ k, compileGetter (Stencil.ofInts 2 Tables.D2V17_walberla) "push" .both ["density"] .default = .ok k ∧
    k.Cells (fun _ => 10) (fun _ => 1) ∧ ∃ i, (loc (.id _) (fun _ => 1 : Vec 2) (k.acc i)).1 0 < 0 :=
  ⟨⟨.default, fun i => ((Stencil.ofInts 2 Tables.D2V17_walberla).c i, i)⟩, rfl, by intro a; decide +revert,
    by simp only [loc]; decide +kernel⟩

end CompiledMacro
end Lbm
