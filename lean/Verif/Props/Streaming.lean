/-
Property theorems C01 – C06: streaming patterns.
-/
import Verif.Sweep
import Verif.Spec.Streaming
import Mathlib.Algebra.BigOperators.Group.Finset.Basic
import Mathlib.Algebra.BigOperators.Pi
import Mathlib.Data.ZMod.Basic
import Mathlib.Algebra.Group.Pi.Lemmas

set_option linter.unusedSectionVars false

namespace Lbm

variable {D : ℕ} {G V : Type} [AddCommGroup G] [DecidableEq G]

/-! ### Which stencils are meant -/

/-- The velocity lists as stencils. -/
def predefinedStencil (l : List (List Int)) : Option ((D : ℕ) × Stencil D) := do
  let e ← l.head?
  return ⟨e.length, Stencil.ofInts e.length l⟩

/-- Decidable form of `EsoOk`. -/
instance (S : Stencil D) : Decidable (EsoOk S) :=
  decidable_of_iff ((∀ i : Fin S.Q, i.val = 0 → S.c i = 0) ∧
      (match lehmannStencil S with
        | some l => decide (∀ i, List.ofFn (S.c i) ∈ l)
        | none => false) = true) (by
    unfold EsoOk
    refine and_congr_right fun _ => ?_
    split <;> simp_all)

instance (S : Stencil D) (p : String) : Decidable (Supported S p) := by unfold Supported; infer_instance

/-- Every predefined stencil and ordering is supported by pull, push, AA and esoteric twist, and those with
9, 15, 19 or 27 velocities by esoteric pull and push. (Non-vacuity of the hypothesis `Supported` below.) -/
theorem predefined_supported :
    ∀ e ∈ Tables.predefined, ∃ D, ∃ S : Stencil D, predefinedStencil e.2.2 = some ⟨D, S⟩ ∧
      (∀ p ∈ ["pull", "push", "aa", "esotwist"], Supported S p) ∧
      (S.Q ∈ [9, 15, 19, 27] → ∀ p ∈ streamingPatterns, Supported S p) := by
  have key : ∀ e ∈ Tables.predefined, (match predefinedStencil e.2.2 with
      | some ⟨_, S⟩ => decide ((∀ p ∈ ["pull", "push", "aa", "esotwist"], Supported S p) ∧
          (S.Q ∈ [9, 15, 19, 27] → ∀ p ∈ streamingPatterns, Supported S p))
      | none => false) = true := by decide +kernel
  intro e he
  have := key e he
  split at this
  · rename_i D S h
    exact ⟨D, S, h, by simpa using of_decide_eq_true this⟩
  · cases this

/-! ### C01 -/

/-- C01, one step, on any set of cells of any lattice: after the step-`t` kernel ran over `cells`, the next kernel
reads in cell `x` for direction `i` what cell `x - c_i` computed for direction `i`, whenever that cell was
processed. -/
theorem C01_step (φ : Vec D →+ G) {S : Stencil D} {p : String} (hs : Supported S p) (t : ℕ)
    (C : G → (Fin S.Q → V) → Fin S.Q → V) {cells : List G} (hn : cells.Nodup)
    (s : (G × Fin S.Q → V) × (G × Fin S.Q → V)) :
    ∃ ts a s' r r', stepTimestep p t = some ts ∧ getAccessor D p ts = some a ∧
      kernelStep φ S a C cells s = some s' ∧
      readPops φ S p t s.1 = some r ∧ readPops φ S p (t + 1) s'.1 = some r' ∧
      ∀ x i, x - φ (S.c i) ∈ cells → r' x i = C (x - φ (S.c i)) (r (x - φ (S.c i))) i := by
  obtain ⟨ts, a, rd, wr, rd', h1, F, hr, hw, hr'⟩ := runFacts (G := G) (V := V) hs t
  obtain ⟨s', hs', hm, -⟩ := kernelStep_sem φ F C hn s
  refine ⟨ts, a, s', _, _, h1, F.acc, hs', hr _ _, hr' _ _, fun x i hx => ?_⟩
  have := hm _ hx i
  rw [loc_wr φ F, sub_add_cancel] at this
  exact this

/-- C01: on a lattice whose cells are all processed (a torus), `n` steps of any pattern deliver to every cell the
populations of the textbook scheme. -/
theorem C01_streaming_pattern_equals_textbook (φ : Vec D →+ G) {S : Stencil D} {p : String} (hs : Supported S p)
    (C : ℕ → G → (Fin S.Q → V) → Fin S.Q → V) {cells : List G} (hn : cells.Nodup) (hall : ∀ x, x ∈ cells)
    (s : (G × Fin S.Q → V) × (G × Fin S.Q → V)) (n : ℕ) :
    ∃ s' r₀ r, run φ S p C (fun _ f => some f) cells n s = some s' ∧
      readPops φ S p 0 s.1 = some r₀ ∧ readPops φ S p n s'.1 = some r ∧
      r = Spec.textbook (fun i => φ (S.c i)) C n r₀ := by
  induction n with
  | zero =>
    obtain ⟨_, _, _, _, _, _, _, hr, _, _⟩ := runFacts (G := G) (V := V) hs 0
    exact ⟨s, _, _, rfl, hr _ _, hr _ _, rfl⟩
  | succ n ih =>
    obtain ⟨s', r₀, r, h1, h2, h3, h4⟩ := ih
    obtain ⟨ts, a, s'', r1, r', g1, g2, g3, g4, g5, g6⟩ := C01_step φ hs n (C n) hn s'
    rw [h3] at g4; cases g4
    refine ⟨s'', r₀, r', ?_, h2, g5, ?_⟩
    · simp [run, h1, g1, g2, g3]
    · funext x i; rw [g6 x i (hall _), h4]; rfl

/-- C01, corollary: any two patterns started from states that deliver the same populations deliver the same
populations for ever. -/
theorem C01_patterns_agree (φ : Vec D →+ G) {S : Stencil D} {p q : String} (hp : Supported S p) (hq : Supported S q)
    (C : ℕ → G → (Fin S.Q → V) → Fin S.Q → V) {cells : List G} (hn : cells.Nodup) (hall : ∀ x, x ∈ cells)
    (s t : (G × Fin S.Q → V) × (G × Fin S.Q → V)) (h0 : readPops φ S p 0 s.1 = readPops φ S q 0 t.1) (n : ℕ) :
    ∃ s' t' r, run φ S p C (fun _ f => some f) cells n s = some s' ∧ run φ S q C (fun _ f => some f) cells n t = some t' ∧
      readPops φ S p n s'.1 = some r ∧ readPops φ S q n t'.1 = some r := by
  obtain ⟨s', a, b, h1, h2, h3, h4⟩ := C01_streaming_pattern_equals_textbook φ hp C hn hall s n
  obtain ⟨t', a', b', g1, g2, g3, g4⟩ := C01_streaming_pattern_equals_textbook φ hq C hn hall t n
  rw [h0, g2] at h2; cases h2
  exact ⟨s', t', b, h1, g1, h3, by rw [g3, h4, g4]⟩

/-- The concrete case used in the examples: the 2D nine-velocity stencil, a 4 × 3 torus. -/
def exStencil : Stencil 2 := Stencil.ofInts 2 Tables.D2Q9_walberla
def exTorus : Vec 2 →+ (ZMod 4 × ZMod 3) where
  toFun v := (v 0, v 1)
  map_zero' := by simp
  map_add' := by intro x y; simp

example : Supported exStencil "esopull" ∧ Supported exStencil "aa" ∧
    (Finset.univ : Finset (ZMod 4 × ZMod 3)).toList.Nodup ∧
    (∀ x, x ∈ (Finset.univ : Finset (ZMod 4 × ZMod 3)).toList) :=
  ⟨by decide +kernel, by decide +kernel, Finset.nodup_toList _, fun x => by simp⟩

/-! ### C02 -/

/-- The memory cells a kernel touches (reads or writes) when it processes lattice cell `x`. -/
def footprint (φ : Vec D →+ G) {Q : ℕ} (rd wr : Fin Q → Access D Q) (x : G) : Set (G × Fin Q) :=
  {k | (∃ i, k = loc φ x (rd i)) ∨ ∃ i, k = loc φ x (wr i)}

/-- Elementary actions of the threads processing the cells: load one population into the thread's private
registers, or compute and store one result. -/
inductive Event (G : Type) (Q : ℕ)
  | load (x : G) (i : Fin Q)
  | store (x : G) (i : Fin Q)

/-- Memory and registers after one action. -/
def Event.exec (φ : Vec D →+ G) {Q : ℕ} (rd wr : Fin Q → Access D Q) (C : G → (Fin Q → V) → Fin Q → V) :
    (G × Fin Q → V) × (G → Fin Q → V) → Event G Q → (G × Fin Q → V) × (G → Fin Q → V)
  | (mem, reg), .load x i => (mem, Function.update reg x (Function.update (reg x) i (mem (loc φ x (rd i)))))
  | (mem, reg), .store x i => (Function.update mem (loc φ x (wr i)) (C x (reg x) i), reg)

/-- A legal interleaving of the threads of `cells`: every action of every cell occurs, none belongs to
another cell, and in each thread all loads precede all stores. -/
structure Schedule (cells : List G) {Q : ℕ} (σ : List (Event G Q)) : Prop where
  loads : ∀ x ∈ cells, ∀ i, Event.load x i ∈ σ
  stores : ∀ x ∈ cells, ∀ i, Event.store x i ∈ σ
  only : ∀ x i, (Event.load x i ∈ σ ∨ Event.store x i ∈ σ) → x ∈ cells
  order : ∀ σ₁ σ₂ x i j, σ = σ₁ ++ Event.store x i :: σ₂ → Event.load x j ∈ σ₁ ∧ Event.load x j ∉ σ₂

/-- C02: with a single-array pattern different cells never touch the same memory, and every interleaving of the
cells' loads and stores, in particular every sequential order, gives the array the sequential sweep gives. -/
theorem C02_inplace_race_free (φ : Vec D →+ G) {S : Stencil D} {p : String} (hs : Supported S p)
    (hin : isInplace p = some true) {ts : Timestep} (ht : TsOk p ts) :
    ∃ a rd wr, getAccessor D p ts = some a ∧ a.read S = some rd ∧ a.write S = some wr ∧
      (∀ x y : G, x ≠ y → Disjoint (footprint φ rd wr x) (footprint φ rd wr y)) ∧
      (∀ (C : G → (Fin S.Q → V) → Fin S.Q → V) (cells cells' : List G), cells.Nodup → cells.Perm cells' →
        ∀ f, sweepInplace φ rd wr C cells f = sweepInplace φ rd wr C cells' f) ∧
      (∀ (C : G → (Fin S.Q → V) → Fin S.Q → V) (cells : List G), cells.Nodup → ∀ σ, Schedule cells σ → ∀ f reg,
        (σ.foldl (Event.exec φ rd wr C) (f, reg)).1 = sweepInplace φ rd wr C cells f) := by
  obtain ⟨a, rd, wr, rd', F⟩ := stepFacts hs ht
  have hflag : a.isInplace = true := by have := F.flag; rw [hin] at this; exact (Option.some.inj this).symm
  obtain ⟨τ, hτb, hτ, -⟩ := F.inplace hflag
  have sem : ∀ (C : G → (Fin S.Q → V) → Fin S.Q → V) (cells : List G), cells.Nodup → ∀ f g : G × Fin S.Q → V,
      (∀ x ∈ cells, ∀ i, g (loc φ x (wr i)) = C x (fun j => f (loc φ x (rd j))) i) →
      (∀ k, (∀ x ∈ cells, ∀ i, k ≠ loc φ x (wr i)) → g k = f k) → g = sweepInplace φ rd wr C cells f := by
    intro C cells hn f g h1 h2
    funext k
    by_cases hk : ∀ x ∈ cells, ∀ i, k ≠ loc φ x (wr i)
    · rw [h2 k hk, sweepInplace_other φ C cells f k hk]
    · push Not at hk
      obtain ⟨x, hx, i, rfl⟩ := hk
      rw [h1 x hx i, sweepInplace_mem φ C F.rd_inj F.wr_inj hτ cells hn f x hx i]
  refine ⟨a, rd, wr, F.acc, F.read, F.write, ?_, ?_, ?_⟩
  · intro x y hxy
    rw [Set.disjoint_left]
    have hfp : ∀ z k, k ∈ footprint φ rd wr z → ∃ i, k = loc φ z (rd i) := by
      rintro z k (⟨i, h⟩ | ⟨i, h⟩)
      · exact ⟨i, h⟩
      · exact ⟨τ i, by rw [h, hτ]⟩
    intro k hk hk'
    obtain ⟨i, h⟩ := hfp _ _ hk
    obtain ⟨j, h'⟩ := hfp _ _ hk'
    exact hxy (loc_inj φ F.rd_inj (h ▸ h')).1
  · intro C cells cells' hn hperm f
    have hn' := hperm.nodup_iff.1 hn
    refine sem C cells' hn' f _ ?_ ?_
    · exact fun x hx i => sweepInplace_mem φ C F.rd_inj F.wr_inj hτ cells hn f x (hperm.mem_iff.2 hx) i
    · exact fun k hk => sweepInplace_other φ C cells f k fun x hx => hk x (hperm.mem_iff.1 hx)
  · intro C cells hn σ hσ f reg
    -- invariant over prefixes of the schedule
    have inv : ∀ σ₁ σ₂, σ = σ₁ ++ σ₂ →
        (∀ x i, Event.store x i ∈ σ₁ →
          (σ₁.foldl (Event.exec φ rd wr C) (f, reg)).1 (loc φ x (wr i)) = C x (fun j => f (loc φ x (rd j))) i) ∧
        (∀ k, (∀ x i, Event.store x i ∈ σ₁ → k ≠ loc φ x (wr i)) →
          (σ₁.foldl (Event.exec φ rd wr C) (f, reg)).1 k = f k) ∧
        (∀ x i, Event.load x i ∈ σ₁ →
          (σ₁.foldl (Event.exec φ rd wr C) (f, reg)).2 x i = f (loc φ x (rd i))) := by
      intro σ₁
      induction σ₁ using List.reverseRecOn with
      | nil => intro σ₂ _; refine ⟨?_, ?_, ?_⟩ <;> simp
      | append_singleton σ₁ e ih =>
        intro σ₂ hsplit
        obtain ⟨i1, i2, i3⟩ := ih (e :: σ₂) (by simp [hsplit])
        rw [List.foldl_append]
        set st := σ₁.foldl (Event.exec φ rd wr C) (f, reg) with hst
        cases e with
        | load y j =>
          have hval : st.1 (loc φ y (rd j)) = f (loc φ y (rd j)) := by
            apply i2
            intro x i hx he
            obtain ⟨rfl, -⟩ := loc_inj φ F.rd_inj (show loc φ y (rd j) = loc φ x (rd (τ i)) by rw [he, hτ])
            obtain ⟨p1, p2, hp⟩ := List.append_of_mem hx
            have := (hσ.order p1 (p2 ++ Event.load y j :: σ₂) y i j (by rw [hsplit, hp]; simp)).2
            exact this (by simp)
          refine ⟨?_, ?_, ?_⟩
          · intro x i hx
            exact i1 x i (by simpa using hx)
          · intro k hk
            exact i2 k fun x i hx => hk x i (by simp [hx])
          · intro x i hx
            simp only [List.foldl_cons, List.foldl_nil, Event.exec]
            by_cases hxy : x = y
            · subst hxy
              by_cases hij : i = j
              · subst hij; simp [hval]
              · rw [Function.update_self, Function.update_of_ne hij]
                exact i3 x i (by simpa [hij] using hx)
            · rw [Function.update_of_ne hxy]
              exact i3 x i (by simpa [hxy] using hx)
        | store y j =>
          have hreg : st.2 y = fun i => f (loc φ y (rd i)) := by
            funext i
            exact i3 y i ((hσ.order σ₁ σ₂ y j i (by simp [hsplit])).1)
          simp only [List.foldl_cons, List.foldl_nil, Event.exec, hreg]
          refine ⟨?_, ?_, ?_⟩
          · intro x i hx
            by_cases he : loc φ x (wr i) = loc φ y (wr j)
            · obtain ⟨rfl, rfl⟩ := loc_inj φ F.wr_inj he
              rw [Function.update_self]
            · rw [Function.update_of_ne he]
              have hx' : Event.store x i ∈ σ₁ ∨ (x = y ∧ i = j) := by simpa using hx
              rcases hx' with hx' | ⟨rfl, rfl⟩
              · exact i1 x i hx'
              · exact absurd rfl he
          · intro k hk
            rw [Function.update_of_ne (hk y j (by simp))]
            exact i2 k fun x i hx => hk x i (by simp [hx])
          · intro x i hx
            exact i3 x i (by simpa using hx)
    obtain ⟨i1, i2, -⟩ := inv σ [] (by simp)
    refine sem C cells hn f _ ?_ ?_
    · exact fun x hx i => i1 x i (hσ.stores x hx i)
    · intro k hk
      exact i2 k fun x i hx => hk x (hσ.only x i (Or.inr hx)) i

example : isInplace "esotwist" = some true ∧ TsOk "esotwist" .odd ∧ Supported exStencil "esotwist" :=
  ⟨rfl, ⟨_, rfl, by decide⟩, by decide +kernel⟩

/-! ### C03 -/

/-- C03: with a two-array pattern no slot of the destination array is written by two (cell, direction) pairs, the
result is the simultaneous update, and the order (even with repetitions) of the cells is irrelevant. -/
theorem C03_two_array_writes_once (φ : Vec D →+ G) {S : Stencil D} {p : String} (hs : Supported S p)
    (hin : isInplace p = some false) :
    ∃ a rd wr, getAccessor D p .both = some a ∧ a.read S = some rd ∧ a.write S = some wr ∧
      (∀ (x y : G) i j, loc φ x (wr i) = loc φ y (wr j) → x = y ∧ i = j) ∧
      (∀ (C : G → (Fin S.Q → V) → Fin S.Q → V) (cells : List G) (src dst : G × Fin S.Q → V),
        (∀ x ∈ cells, ∀ i, sweepTwo φ rd wr C cells src dst (loc φ x (wr i)) =
          C x (fun j => src (loc φ x (rd j))) i) ∧
        (∀ k, (¬ ∃ x ∈ cells, ∃ i, k = loc φ x (wr i)) → sweepTwo φ rd wr C cells src dst k = dst k)) ∧
      (∀ (C : G → (Fin S.Q → V) → Fin S.Q → V) (cells cells' : List G) (src dst : G × Fin S.Q → V),
        (∀ x, x ∈ cells ↔ x ∈ cells') → sweepTwo φ rd wr C cells src dst = sweepTwo φ rd wr C cells' src dst) := by
  have ht : TsOk p .both := ⟨_, by simp [getTimesteps, hin]; rfl, by simp⟩
  obtain ⟨a, rd, wr, rd', F⟩ := stepFacts hs ht
  refine ⟨a, rd, wr, F.acc, F.read, F.write, fun x y i j h => loc_inj φ F.wr_inj h, ?_, ?_⟩
  · intro C cells src dst
    refine ⟨fun x hx i => sweepTwo_mem φ C F.wr_inj cells src dst x hx i, fun k hk => ?_⟩
    exact sweepTwo_other φ C cells src dst k fun x hx i h => hk ⟨x, hx, i, h⟩
  · intro C cells cells' src dst h
    funext k
    by_cases hk : ∀ x ∈ cells, ∀ i, k ≠ loc φ x (wr i)
    · rw [sweepTwo_other φ C cells src dst k hk,
        sweepTwo_other φ C cells' src dst k fun x hx => hk x ((h x).2 hx)]
    · push Not at hk
      obtain ⟨x, hx, i, rfl⟩ := hk
      rw [sweepTwo_mem φ C F.wr_inj cells src dst x hx, sweepTwo_mem φ C F.wr_inj cells' src dst x ((h x).1 hx)]

example : isInplace "push" = some false ∧ Supported exStencil "push" := ⟨rfl, by decide +kernel⟩

/-! ### C04 -/

/-- One step of a simulation with separate kernels: the collide-only kernel (in-place, `fieldaccess.py:54-63`,
`lbstep.py:152-156`) followed by the stream-only pull kernel with identity update (`updatekernels.py:61-84`) and the
array swap. -/
def splitStep (φ : Vec D →+ G) (S : Stencil D) (C : G → (Fin S.Q → V) → Fin S.Q → V) (cells : List G)
    (s : (G × Fin S.Q → V) × (G × Fin S.Q → V)) : Option ((G × Fin S.Q → V) × (G × Fin S.Q → V)) := do
  let s ← kernelStep φ S collideOnly C cells s
  kernelStep φ S pull (fun _ f => f) cells s

/-- `n` such steps. -/
def splitRun (φ : Vec D →+ G) (S : Stencil D) (C : ℕ → G → (Fin S.Q → V) → Fin S.Q → V) (cells : List G) :
    ℕ → (G × Fin S.Q → V) × (G × Fin S.Q → V) → Option ((G × Fin S.Q → V) × (G × Fin S.Q → V))
  | 0, s => some s
  | n + 1, s => do splitStep φ S (C n) cells (← splitRun φ S C cells n s)

theorem splitRun_textbook (φ : Vec D →+ G) {S : Stencil D}
    (C : ℕ → G → (Fin S.Q → V) → Fin S.Q → V) {cells : List G} (hn : cells.Nodup) (hall : ∀ x, x ∈ cells)
    (s : (G × Fin S.Q → V) × (G × Fin S.Q → V)) (n : ℕ) :
    ∃ s', splitRun φ S C cells n s = some s' ∧
      (fun x i => s'.1 (x, i)) = Spec.textbook (fun i => φ (S.c i)) C n (fun x i => s.1 (x, i)) := by
  induction n with
  | zero => exact ⟨s, rfl, rfl⟩
  | succ n ih =>
    obtain ⟨s', h1, h2⟩ := ih
    have e1 : (collideOnly : Accessor D).read S = some fun i => (0, i) := collect_eq_some.2 fun i => rfl
    have e2 : (collideOnly : Accessor D).write S = some fun i => (0, i) := collect_eq_some.2 fun i => rfl
    have e3 : (pull : Accessor D).read S = some fun i => (-S.c i, i) := collect_eq_some.2 fun i => rfl
    have e4 : (pull : Accessor D).write S = some fun i => (0, i) := collect_eq_some.2 fun i => rfl
    have inj : Function.Injective fun i : Fin S.Q => i := fun i j h => h
    set g := sweepInplace φ (fun i => ((0 : Vec D), i)) (fun i => (0, i)) (C n) cells s'.1 with hg
    refine ⟨(sweepTwo φ (fun i => (-S.c i, i)) (fun i => (0, i)) (fun _ f => f) cells g s'.2, g), ?_, ?_⟩
    · simp only [splitRun, h1, splitStep, kernelStep, e1, e2, e3, e4, Option.bind_eq_bind, Option.bind_some, pure]
      simp [collideOnly, pull, hg]
    · funext x i
      have a1 := sweepTwo_mem φ (rd := fun i => (-S.c i, i)) (wr := fun i : Fin S.Q => ((0 : Vec D), i))
        (fun _ f => f) inj cells g s'.2 x (hall x) i
      have a2 := sweepInplace_mem φ (rd := fun i : Fin S.Q => ((0 : Vec D), i)) (wr := fun i => (0, i)) (C n) inj inj
        (σ := id) (fun _ => rfl) cells hn s'.1 (x - φ (S.c i)) (hall _) i
      simp only [loc, map_zero, add_zero, map_neg] at a1 a2
      rw [← sub_eq_add_neg] at a1
      show sweepTwo _ _ _ _ _ _ _ (x, i) = _
      rw [a1, hg, a2]
      show C n (x - φ (S.c i)) ((fun x i => s'.1 (x, i)) (x - φ (S.c i))) i = _
      rw [h2]; rfl

/-- C04: a simulation with separate collide-only and stream-only kernels and one with fused kernels of any pattern,
started from equivalent states (what the fused kernel is about to read is what the split simulation has stored),
stay equivalent for ever. -/
theorem C04_split_equals_fused (φ : Vec D →+ G) {S : Stencil D} {p : String} (hs : Supported S p)
    (C : ℕ → G → (Fin S.Q → V) → Fin S.Q → V) {cells : List G} (hn : cells.Nodup) (hall : ∀ x, x ∈ cells)
    (s t : (G × Fin S.Q → V) × (G × Fin S.Q → V))
    (h0 : readPops φ S p 0 t.1 = some fun x i => s.1 (x, i)) (n : ℕ) :
    ∃ s' t', splitRun φ S C cells n s = some s' ∧ run φ S p C (fun _ f => some f) cells n t = some t' ∧
      readPops φ S p n t'.1 = some fun x i => s'.1 (x, i) := by
  obtain ⟨s', h1, h2⟩ := splitRun_textbook φ C hn hall s n
  obtain ⟨t', a, b, g1, g2, g3, g4⟩ := C01_streaming_pattern_equals_textbook φ hs C hn hall t n
  refine ⟨s', t', h1, g1, ?_⟩
  rw [h0] at g2; cases g2
  rw [g3, g4, ← h2]

/-- The hypothesis of `C04_split_equals_fused` can be met from every split state (here for pull). -/
example (s : (ZMod 4 × ZMod 3) × Fin exStencil.Q → ℚ) :
    ∃ f, readPops exTorus exStencil "pull" 0 f = some fun x i => s (x, i) :=
  ⟨fun k => s (k.1 + exTorus (exStencil.c k.2), k.2), by
    have : stepTimestep "pull" 0 = some .both := rfl
    have h2 : getAccessor 2 "pull" .both = some pull := rfl
    simp [readPops, this, h2, pull_read, loc]⟩

/-! ### C05 -/

/-- C05: on a finite periodic lattice, a quantity `∑ᵢ hᵢ(fᵢ)` that the collision operator preserves cell by cell has
the same global total before and after any number of steps, with every pattern. -/
theorem C05_streaming_conserves_totals [Fintype G] {W : Type} [AddCommMonoid W] (φ : Vec D →+ G) {S : Stencil D}
    {p : String} (hs : Supported S p) (C : ℕ → G → (Fin S.Q → V) → Fin S.Q → V) (h : Fin S.Q → V → W)
    (hC : ∀ t x f, ∑ i, h i (C t x f i) = ∑ i, h i (f i))
    {cells : List G} (hn : cells.Nodup) (hall : ∀ x, x ∈ cells)
    (s : (G × Fin S.Q → V) × (G × Fin S.Q → V)) (n : ℕ) :
    ∃ s' r₀ r, run φ S p C (fun _ f => some f) cells n s = some s' ∧
      readPops φ S p 0 s.1 = some r₀ ∧ readPops φ S p n s'.1 = some r ∧
      ∑ x, ∑ i, h i (r x i) = ∑ x, ∑ i, h i (r₀ x i) := by
  obtain ⟨s', r₀, r, h1, h2, h3, h4⟩ := C01_streaming_pattern_equals_textbook φ hs C hn hall s n
  refine ⟨s', r₀, r, h1, h2, h3, ?_⟩
  rw [h4]; clear h1 h2 h3 h4
  induction n with
  | zero => rfl
  | succ n ih =>
    rw [← ih, Finset.sum_comm, Finset.sum_congr rfl fun i _ =>
      show _ = ∑ x, h i (C n x (Spec.textbook (fun i => φ (S.c i)) C n r₀ x) i) from ?_]
    · rw [Finset.sum_comm]; exact Finset.sum_congr rfl fun x _ => hC n x _
    · exact Fintype.sum_equiv (Equiv.subRight (φ (S.c i))) _ _ fun x => rfl

/-- A non-trivial operator preserving mass: exchange of the populations of two directions. -/
example : ∀ f : Fin exStencil.Q → ℚ, ∑ i, (fun (_ : Fin exStencil.Q) v => v) i (f (Equiv.swap ⟨1, by decide⟩ ⟨4, by decide⟩ i))
    = ∑ i, f i := fun f => Equiv.sum_comp _ f

/-! ### C06 -/

/-- C06: `get_accessor` fails exactly for unknown pattern names and for in-place patterns without a definite parity;
`is_inplace` fails exactly for unknown names. -/
theorem C06_accessor_rejects_exactly (p : String) (ts : Timestep) :
    (getAccessor D p ts = none ↔
      p ∉ ["push", "pull", "aa", "esotwist", "esopull", "esopush"] ∨
      (p ∈ ["aa", "esotwist", "esopull", "esopush"] ∧ ts = .both)) ∧
    (isInplace p = none ↔ p ∉ ["push", "pull", "aa", "esotwist", "esopull", "esopush"]) ∧
    (getTimesteps p = none ↔ p ∉ ["push", "pull", "aa", "esotwist", "esopull", "esopush"]) := by
  by_cases hp : p ∈ streamingPatterns
  · have hp' := hp
    simp only [streamingPatterns, List.mem_cons, List.not_mem_nil, or_false] at hp'
    rcases hp' with rfl | rfl | rfl | rfl | rfl | rfl <;> cases ts <;>
      refine ⟨?_, ?_, ?_⟩ <;>
      simp [getAccessor, isInplace, streamingPatterns, getTimesteps, evenAccessors, oddAccessors, List.lookup]
  · have hb := hp
    simp only [streamingPatterns] at hb
    simp [getAccessor, isInplace, getTimesteps, hp, hb]

/-- C06: consecutive timesteps of a pattern alternate, the timestep after the next is the same one, and the list
of timesteps to use is closed under `next`. -/
theorem C06_timesteps_alternate (p : String) (l : List Timestep) (h : getTimesteps p = some l) :
    (∀ ts ∈ l, ts.next ∈ l ∧ ts.next.next = ts ∧ ∃ a, getAccessor D p ts = some a) ∧
    (isInplace p = some true → ∀ ts ∈ l, ts.next ≠ ts) := by
  have hp : p ∈ streamingPatterns := by
    by_contra hc
    simp [getTimesteps, isInplace, hc] at h
  have hp' := hp
  simp only [streamingPatterns, List.mem_cons, List.not_mem_nil, or_false] at hp'
  rcases hp' with rfl | rfl | rfl | rfl | rfl | rfl <;> cases h <;> refine ⟨?_, ?_⟩ <;>
    simp [Timestep.next, getAccessor, isInplace, streamingPatterns, evenAccessors, oddAccessors, List.lookup]

/-- C06, esoteric pull/push with a stencil size Lehmann's ordering does not exist for: no kernel results. (In python
the failure is an `AttributeError` on `None`, not the intended `ValueError`: `fieldaccess.py:388` lacks `raise`.) -/
theorem C06_esoteric_rejects_other_sizes {S : Stencil D} {p : String} (hp : p = "esopull" ∨ p = "esopush")
    (hQ : S.Q ∉ [9, 15, 19, 27]) (h2 : 2 ≤ S.Q) (ts : Timestep) (a : Accessor D) (ha : getAccessor D p ts = some a) :
    a.read S = none ∧ a.write S = none := by
  have hl : lehmannStencil S = none := by
    unfold lehmannStencil
    simp at hQ
    simp [hQ]
  have key : ∀ f g, esoAccess S f g = none := by
    intro f g
    unfold esoAccess collect
    rw [dif_neg]
    intro hc
    have := hc ⟨1, h2⟩
    simp [lehmannEven, hl] at this
  rcases hp with rfl | rfl <;> cases ts <;> cases ha <;> exact ⟨key _ _, key _ _⟩

/-- C06, negation for esoteric pull: with a nine-velocity stencil whose rest velocity is not the first entry the
accessor is built without complaint, but the populations written by direction 0 are not those read one link further
in the next step: the stencil is silently mistranslated. -/
def exRestLast : Stencil 2 :=
  Stencil.ofInts 2 [[1, 0], [0, 0], [-1, 0], [0, 1], [0, -1], [1, 1], [-1, -1], [1, -1], [-1, 1]]

theorem C06_rest_not_first_mistranslated :
    exRestLast.Valid ∧ exRestLast.InvClosed ∧
      ((do
        let wr ← (esoPullEven : Accessor 2).write exRestLast
        let rd ← (esoPullOdd : Accessor 2).read exRestLast
        return decide ((wr ⟨0, by decide⟩).1 = exRestLast.c ⟨0, by decide⟩ + (rd ⟨0, by decide⟩).1)) = some false) := by
  decide +kernel

end Lbm
