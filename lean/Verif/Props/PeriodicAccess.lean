/-
Property theorems C11: the periodic accessor streams on the torus.
-/
import Verif.PeriodicAccess
import Verif.Props.Communication

set_option linter.unusedSectionVars false

namespace Lbm

variable {D : ℕ} {V : Type}

/-- Inner cells of an array with `N k` inner cells and `g` ghost layers per side. -/
def InnerG (N : Fin D → ℕ) (g : ℕ) (x : Vec D) : Prop := ∀ k, (g : ℤ) ≤ x k ∧ x k < g + N k

/-- C11: for every inner cell, the load of a nearest-neighbour direction goes to the cell `x - d`, wrapped around the
inner domain in the periodic axes: in those axes it stays inside the domain and is congruent to `x - d` modulo the
number of inner cells, in the others it is `x - d`. -/
theorem C11_source_is_torus_neighbour (per : Fin D → Bool) (N : Fin D → ℕ) (g : ℕ) (d x : Vec D)
    (hd : ∀ k, per k = true → d k = -1 ∨ d k = 0 ∨ d k = 1) (hx : InnerG N g x) :
    ∃ y, periodicSource per (fun k => N k + 2 * g) g d x = some y ∧
      ∀ k, (per k = true → ((g : ℤ) ≤ y k ∧ y k < g + N k) ∧ (N k : ℤ) ∣ y k - (x k - d k)) ∧
        (per k = false → y k = x k - d k) := by
  have h : ∀ k, ∃ o, periodicOffset (per k) (N k + 2 * g) g (x k) (-(d k)) = some o ∧
      (per k = true → ((g : ℤ) ≤ x k + o ∧ x k + o < g + N k) ∧ (N k : ℤ) ∣ x k + o - (x k - d k)) ∧
        (per k = false → x k + o = x k - d k) := by
    intro k
    have hxk := hx k
    cases hp : per k with
    | false => exact ⟨_, by simp [periodicOffset]; rfl, by simp, fun _ => by omega⟩
    | true =>
      rcases hd k hp with h | h | h <;> rw [h]
      · by_cases hlt : x k < g + N k - 1
        · refine ⟨1, by simp [periodicOffset]; omega, fun _ => ⟨by omega, ⟨0, by omega⟩⟩, by simp⟩
        · refine ⟨-((N k : ℤ) - 1), by simp [periodicOffset]; omega, fun _ => ⟨by omega, ⟨-1, by omega⟩⟩, by simp⟩
      · exact ⟨0, by simp [periodicOffset], fun _ => ⟨by omega, ⟨0, by omega⟩⟩, by simp⟩
      · by_cases hlt : (g : ℤ) < x k
        · refine ⟨-1, by simp [periodicOffset, hlt], fun _ => ⟨by omega, ⟨0, by omega⟩⟩, by simp⟩
        · refine ⟨(N k : ℤ) - 1, by simp [periodicOffset, hlt]; omega, fun _ => ⟨by omega, ⟨1, by omega⟩⟩, by simp⟩
  choose o ho1 ho2 using h
  refine ⟨fun k => x k + o k, ?_, fun k => ho2 k⟩
  have : collect _ = some o := collect_eq_some.2 ho1
  unfold periodicSource
  rw [this]; rfl

/-- C11: the accessor refuses exactly the directions that go further than the nearest neighbour along a periodic
axis, whatever the cell. -/
theorem C11_rejects_exactly (per : Fin D → Bool) (L : Fin D → ℤ) (g : ℤ) (d x : Vec D) :
    periodicSource per L g d x = none ↔ ∃ k, per k = true ∧ 1 < |d k| := by
  have hone : ∀ k, periodicOffset (per k) (L k) g (x k) (-(d k)) = none ↔ per k = true ∧ 1 < |d k| := by
    intro k
    have hab : 1 < |d k| ↔ d k ≠ 0 ∧ d k ≠ 1 ∧ d k ≠ -1 := by
      rcases abs_cases (d k) with ⟨h, _⟩ | ⟨h, _⟩ <;> rw [h] <;> omega
    rw [hab]
    unfold periodicOffset
    cases per k <;> simp
    split_ifs <;> simp <;> omega
  constructor
  · intro h
    by_contra hc
    push Not at hc
    have : ∀ k, ∃ o, periodicOffset (per k) (L k) g (x k) (-(d k)) = some o := by
      intro k
      cases ho : periodicOffset (per k) (L k) g (x k) (-(d k)) with
      | some o => exact ⟨o, rfl⟩
      | none =>
        have := (hone k).1 ho
        have := hc k this.1
        omega
    choose o ho using this
    have e : collect _ = some o := collect_eq_some.2 ho
    unfold periodicSource at h
    rw [e] at h
    cases h
  · rintro ⟨k, hk⟩
    cases hs : periodicSource per L g d x with
    | none => rfl
    | some y =>
      unfold periodicSource at hs
      cases hcol : collect fun k => periodicOffset (per k) (L k) g (x k) (-(d k)) with
      | none => rw [hcol] at hs; cases hs
      | some o =>
        have := collect_eq_some.1 hcol k
        rw [(hone k).2 hk] at this
        cases this

/-- Uniqueness of torus representatives. -/
theorem innerG_unique {N : Fin D → ℕ} {g : ℕ} {y z : Vec D} (hy : InnerG N g y) (hz : InnerG N g z)
    (h : ∀ k, (N k : ℤ) ∣ y k - z k) : y = z := by
  funext k
  have h1 := hy k
  have h2 := hz k
  have := Int.eq_zero_of_abs_lt_dvd (h k) (by rw [abs_lt]; omega)
  omega

/-- C11: on a fully periodic domain the loads of one direction visit every inner cell exactly once per sweep, and no
load leaves the inner domain. -/
theorem C11_each_slot_read_once (N : Fin D → ℕ) (g : ℕ) (d : Vec D)
    (hd : ∀ k, d k = -1 ∨ d k = 0 ∨ d k = 1) :
    ∀ y, InnerG N g y → ∃! x, InnerG N g x ∧
      periodicSource (fun _ => true) (fun k => N k + 2 * g) g d x = some y := by
  intro y hy
  have hsrc : ∀ x, InnerG N g x → ∃ y, periodicSource (fun _ => true) (fun k => N k + 2 * g) g d x = some y ∧
      InnerG N g y ∧ ∀ k, (N k : ℤ) ∣ y k - (x k - d k) := by
    intro x hx
    obtain ⟨y, h1, h2⟩ := C11_source_is_torus_neighbour (fun _ => true) N g d x (fun k _ => hd k) hx
    exact ⟨y, h1, fun k => ((h2 k).1 rfl).1, fun k => ((h2 k).1 rfl).2⟩
  let x : Vec D := fun k => g + (y k + d k - g) % N k
  have hx : InnerG N g x := fun k => by
    have := hy k
    have h1 := Int.emod_nonneg (y k + d k - g) (show (N k : ℤ) ≠ 0 by omega)
    have h2 := Int.emod_lt_of_pos (y k + d k - g) (show (0 : ℤ) < N k by omega)
    simp only [x]; omega
  have hxy : ∀ k, (N k : ℤ) ∣ x k - (y k + d k) := fun k => by
    refine ⟨-((y k + d k - g) / N k), ?_⟩
    have := Int.emod_add_mul_ediv (y k + d k - g) (N k)
    rw [mul_neg]
    simp only [x]
    omega
  refine ⟨x, ⟨hx, ?_⟩, ?_⟩
  · obtain ⟨y', h1, h2, h3⟩ := hsrc x hx
    rw [h1, innerG_unique h2 hy]
    intro k
    have := dvd_add (h3 k) (hxy k)
    rwa [show y' k - (x k - d k) + (x k - (y k + d k)) = y' k - y k by ring] at this
  · rintro z ⟨hz, hzy⟩
    obtain ⟨y', h1, h2, h3⟩ := hsrc z hz
    rw [hzy] at h1
    cases h1
    apply innerG_unique hz hx
    intro k
    have := dvd_add (h3 k) (hxy k)
    rw [show y k - (z k - d k) + (x k - (y k + d k)) = -(z k - x k) by ring] at this
    exact (dvd_neg.1 this)

/-- The sweep with the periodic accessor is the simultaneous update. -/
theorem periodicStep_sem {per : Fin D → Bool} {L : Fin D → ℤ} {g : ℤ} {S : Stencil D}
    (C : Vec D → (Fin S.Q → V) → Fin S.Q → V) (Y : Vec D → Fin S.Q → Vec D) (cells : List (Vec D))
    (hY : ∀ x ∈ cells, ∀ i, periodicSource per L g (S.c i) x = some (Y x i)) (src dst : Vec D × Fin S.Q → V) :
    ∃ f, periodicStep per L g S C cells src dst = some f ∧
      (∀ x ∈ cells, ∀ i, f (x, i) = C x (fun j => src (Y x j, j)) i) ∧
      (∀ x, x ∉ cells → ∀ i, f (x, i) = dst (x, i)) := by
  induction cells generalizing dst with
  | nil => exact ⟨dst, rfl, by simp, fun _ _ _ => rfl⟩
  | cons x cells ih =>
    have e : collect (fun i => periodicSource per L g (S.c i) x) = some (Y x) :=
      collect_eq_some.2 (hY x (List.mem_cons_self ..))
    obtain ⟨f, h1, h2, h3⟩ := ih (fun x hx => hY x (List.mem_cons_of_mem _ hx))
      (fun s => if s.1 = x then C x (fun j => src (Y x j, j)) s.2 else dst s)
    refine ⟨f, ?_, ?_, ?_⟩
    · simp only [periodicStep, e, Option.bind_eq_bind, Option.bind_some]
      exact h1
    · intro z hz i
      by_cases hm : z ∈ cells
      · exact h2 z hm i
      · obtain rfl : z = x := by simpa [hm] using hz
        rw [h3 z hm]; simp
    · intro z hz i
      rw [List.mem_cons, not_or] at hz
      rw [h3 z hz.2]; simp [hz.1]

/-- C11, whole runs: with the periodic accessor, on a fully periodic domain of any size with any number of ghost
layers, a run over the inner cells computes the textbook scheme on the torus `G` with projection `ψ`. The populations
stored are post-collision, so the textbook state is what the kernel loads. -/
theorem C11_periodic_accessor_run {G : Type} [AddCommGroup G] (N : Fin D → ℕ) (g : ℕ) (ψ : Vec D →+ G)
    (hψ : ∀ v, ψ v = 0 ↔ ∀ k, (N k : ℤ) ∣ v k) {S : Stencil D} (hc : ∀ i k, S.c i k = -1 ∨ S.c i k = 0 ∨ S.c i k = 1)
    {cells : List (Vec D)} (hcells : ∀ x, x ∈ cells ↔ InnerG N g x)
    (C : ℕ → G → (Fin S.Q → V) → Fin S.Q → V) (s : (Vec D × Fin S.Q → V) × (Vec D × Fin S.Q → V))
    (q : G → Fin S.Q → V) (hq : ∀ y, InnerG N g y → ∀ i, s.1 (y, i) = q (ψ y + ψ (S.c i)) i) (n : ℕ) :
    ∃ s', periodicRun (fun _ => true) (fun k => N k + 2 * g) g S (fun t x => C t (ψ x)) cells n s = some s' ∧
      ∀ y, InnerG N g y → ∀ i,
        s'.1 (y, i) = Spec.textbook (fun i => ψ (S.c i)) C n q (ψ y + ψ (S.c i)) i := by
  induction n with
  | zero => exact ⟨s, rfl, hq⟩
  | succ n ih =>
    obtain ⟨s', h1, h2⟩ := ih
    have hY : ∀ x : Vec D, ∀ i, ∃ y, InnerG N g x →
        (periodicSource (fun _ => true) (fun k => N k + 2 * g) g (S.c i) x = some y ∧ InnerG N g y ∧
          ψ y = ψ x - ψ (S.c i)) := by
      intro x i
      by_cases hx : InnerG N g x
      · obtain ⟨y, h1, h2⟩ := C11_source_is_torus_neighbour (fun _ => true) N g (S.c i) x (fun k _ => hc i k) hx
        refine ⟨y, fun _ => ⟨h1, fun k => ((h2 k).1 rfl).1, ?_⟩⟩
        rw [← map_sub, ← sub_eq_zero, ← map_sub, hψ]
        exact fun k => ((h2 k).1 rfl).2
      · exact ⟨x, fun h => absurd h hx⟩
    choose Y hY using hY
    obtain ⟨f, k1, k2, -⟩ := periodicStep_sem (fun x => C n (ψ x)) Y cells
      (fun x hx i => (hY x i ((hcells x).1 hx)).1) s'.1 s'.2
    refine ⟨(f, s'.1), ?_, ?_⟩
    · simp only [periodicRun, h1, k1, Option.bind_eq_bind, Option.bind_some]
    · intro y hy i
      refine (k2 y ((hcells y).2 hy) i).trans ?_
      show _ = C n (ψ y + ψ (S.c i) - ψ (S.c i)) _ i
      rw [add_sub_cancel_right]
      congr 1
      funext j
      obtain ⟨-, h4, h5⟩ := hY y j hy
      rw [h2 _ h4, h5, sub_add_cancel]

/-- Concrete instances: a 4×3 domain with two ghost layers; the load that wraps around the corner. -/
example : (∀ i k, exStencil.c i k = -1 ∨ exStencil.c i k = 0 ∨ exStencil.c i k = 1) ∧
    InnerG ![4, 3] 2 ![2, 4] ∧
    periodicSource (fun _ => true) (fun k => (![4, 3] : Fin 2 → ℕ) k + 2 * (2 : ℕ)) 2 ![1, -1] ![2, 4] = some ![5, 2] := by
  refine ⟨by decide +kernel, ?_, by decide +kernel⟩
  intro k; fin_cases k <;> simp

end Lbm
