/-
Property theorems C08, C09, C43: bounce back in every streaming pattern.
-/
import Verif.Boundary
import Verif.Props.Indexing
import Mathlib.Algebra.BigOperators.Ring.Finset
import Mathlib.Algebra.Ring.Int.Defs
import Mathlib.Data.Int.Cast.Basic
import Mathlib.Data.Int.Cast.Lemmas
import Mathlib.Tactic.Ring

set_option linter.unusedSectionVars false

namespace Lbm

variable {D : ℕ} {G V : Type} [AddCommGroup G] [DecidableEq G]

/-! ### C08 -/

/-- C08: let `links` be links (cell, direction) from a fluid region to its outside, in any order and with any
repetitions. After the no-slip kernel between step `t` and `t+1`, a linked cell reads next, for the reversed link
direction, the population it sent towards the wall in step `t`; what any cell reads for any other direction, in
particular every population coming from a fluid cell, is unchanged. -/
theorem C08_no_slip_is_bounce_back (φ : Vec D →+ G) {S : Stencil D} {p : String} (hs : Supported S p)
    (hc : S.InvClosed) (t : ℕ) (fluid : Set G) (links : List (G × Fin S.Q))
    (hl : ∀ l ∈ links, l.1 ∈ fluid ∧ l.1 + φ (S.c l.2) ∉ fluid) (f : G × Fin S.Q → V) :
    ∃ f' w r r', boundaryHook φ S p noSlipRule links t f = some f' ∧ writtenPops φ S p t f = some w ∧
      readPops φ S p (t + 1) f = some r ∧ readPops φ S p (t + 1) f' = some r' ∧
      (∀ y j j', (y, j) ∈ links → S.c j' = -S.c j → r' y j' = w y j) ∧
      (∀ x i, (∀ j, S.c i = -S.c j → (x, j) ∉ links) → r' x i = r x i) ∧
      (∀ x i, x - φ (S.c i) ∈ fluid → r' x i = r x i) := by
  obtain ⟨f', w, r, r', h1, h2, h3, h4, h5, h6⟩ := boundaryHook_sem φ hs hc t noSlipRule fluid links hl
    (fun l hm g g' _ _ hg _ => hg l.1 (hl l hm).1 l.2) f
  refine ⟨f', w, r, r', h1, h2, h3, h4, fun y j j' hm hj => h5 y j j' hm hj, h6, fun x i hx => h6 x i ?_⟩
  intro j hj hm
  apply (hl _ hm).2
  have : S.c j = -S.c i := by rw [hj, neg_neg]
  rw [this, map_neg, ← sub_eq_add_neg]
  exact hx

/-- C08: the order of the index list (and repetitions in it) does not matter, for no-slip and for every other rule
that looks at populations of fluid cells only. -/
theorem C08_link_order_irrelevant (φ : Vec D →+ G) {S : Stencil D} {p : String} (hs : Supported S p)
    (hc : S.InvClosed) (t : ℕ) (R : Rule G S.Q V) (fluid : Set G)
    (links links' : List (G × Fin S.Q))
    (hl : ∀ l ∈ links, l.1 ∈ fluid ∧ l.1 + φ (S.c l.2) ∉ fluid)
    (hR : ∀ l ∈ links, R.Local φ S fluid l) (heq : ∀ l, l ∈ links ↔ l ∈ links') (f : G × Fin S.Q → V) :
    boundaryHook φ S p R links t f = boundaryHook φ S p R links' t f := by
  obtain ⟨ts, h1, h2, h3⟩ := stepTimestep_spec hs.1 t
  obtain ⟨a, rd, wr, rd', F⟩ := stepFacts hs h2
  have hmk := make_spec hs hc h2 F
  obtain ⟨f1, a1, a2, a3⟩ := linkKernel_sem φ hs.2.1 hc F R fluid links hl hR f
  obtain ⟨f2, b1, b2, b3⟩ := linkKernel_sem φ hs.2.1 hc F R fluid links' (fun l h => hl l ((heq l).2 h))
    (fun l h => hR l ((heq l).2 h)) f
  simp only [boundaryHook, h1, hmk, Option.bind_eq_bind, Option.bind_some, a1, b1, Option.some.injEq]
  funext k
  by_cases hk : ∃ y j j', (y, j) ∈ links ∧ S.c j' = -S.c j ∧ k = loc φ y (rd' j')
  · obtain ⟨y, j, j', hm, hj, rfl⟩ := hk
    rw [a2 y j j' hm hj, b2 y j j' ((heq _).1 hm) hj]
  · push Not at hk
    rw [a3 k hk, b3 k fun y j j' hm hj => hk y j j' ((heq _).2 hm) hj]

/-- A 4 × 3 torus with a one-cell obstacle: the four axis links to it are links. -/
def exFluid : Set (ZMod 4 × ZMod 3) := {x | x ≠ (0, 0)}
instance : DecidablePred (· ∈ exFluid) := fun x => inferInstanceAs (Decidable (x ≠ (0, 0)))
example : ∀ l ∈ [((0, 2), (⟨1, by decide⟩ : Fin exStencil.Q)), ((0, 1), ⟨2, by decide⟩), ((1, 0), ⟨3, by decide⟩),
      ((3, 0), ⟨4, by decide⟩)], l.1 ∈ exFluid ∧ l.1 + exTorus (exStencil.c l.2) ∉ exFluid := by
  decide +kernel

/-! ### C09 and C43 -/

/-- All links of a finite fluid domain, each once, in any order. -/
structure AllLinks (φ : Vec D →+ G) (S : Stencil D) (cells : List G) (links : List (G × Fin S.Q)) : Prop where
  nodup : links.Nodup
  mem : ∀ y j, (y, j) ∈ links ↔ y ∈ cells ∧ y + φ (S.c j) ∉ cells

/-- One step in a closed domain: the populations read next are the post-collision ones, streamed where the source is
fluid and reflected otherwise. -/
theorem closed_step (φ : Vec D →+ G) {S : Stencil D} {p : String} (hs : Supported S p) (hc : S.InvClosed)
    {cells : List G} (hn : cells.Nodup) {links : List (G × Fin S.Q)} (hl : AllLinks φ S cells links) (t : ℕ)
    (C : G → (Fin S.Q → V) → Fin S.Q → V) (s : (G × Fin S.Q → V) × (G × Fin S.Q → V)) :
    ∃ ts a s' f' r w r', stepTimestep p t = some ts ∧ getAccessor D p ts = some a ∧
      kernelStep φ S a C cells s = some s' ∧ boundaryHook φ S p noSlipRule links t s'.1 = some f' ∧
      readPops φ S p t s.1 = some r ∧ writtenPops φ S p t s'.1 = some w ∧ readPops φ S p (t + 1) f' = some r' ∧
      (∀ x ∈ cells, ∀ i, w x i = C x (r x) i) ∧
      (∀ x i, x - φ (S.c i) ∈ cells → r' x i = w (x - φ (S.c i)) i) ∧
      (∀ x ∈ cells, ∀ i j, x - φ (S.c i) ∉ cells → S.c j = -S.c i → r' x i = w x j) := by
  obtain ⟨ts, a, rd, wr, rd', h1, F, hr, hw, hr'⟩ := runFacts (G := G) (V := V) hs t
  obtain ⟨s', hs', hm, -⟩ := kernelStep_sem φ F C hn s
  have hlk : ∀ l ∈ links, l.1 ∈ {x | x ∈ cells} ∧ l.1 + φ (S.c l.2) ∉ {x | x ∈ cells} :=
    fun l hl' => (hl.mem l.1 l.2).1 hl'
  obtain ⟨f', w, r, r', g1, g2, g3, g4, g5, g6, g7⟩ := C08_no_slip_is_bounce_back φ hs hc t _ links hlk s'.1
  rw [hw] at g2; cases g2
  rw [hr'] at g3; cases g3
  refine ⟨ts, a, s', f', _, _, r', h1, F.acc, hs', g1, hr _ _, hw _ _, g4, hm, ?_, ?_⟩
  · intro x i hx
    rw [g7 x i hx]
    show s'.1 (loc φ x (rd' i)) = s'.1 (loc φ (x - φ (S.c i)) (wr i))
    rw [loc_wr φ F, sub_add_cancel]
  · intro x hx i j hi hj
    refine g5 x j i ((hl.mem x j).2 ⟨hx, ?_⟩) (by rw [hj, neg_neg])
    rw [hj, map_neg, ← sub_eq_add_neg]; exact hi

/-- Reindexing of sums over a closed domain. -/
theorem closed_sum {W : Type} [AddCommMonoid W] (φ : Vec D →+ G) {S : Stencil D} (hv : S.Valid)
    {inv : Fin S.Q → Fin S.Q} (hcinv : ∀ i, S.c (inv i) = -S.c i) (Ω : Finset G)
    (r' w : G → Fin S.Q → V) (h : Fin S.Q → V → W)
    (h1 : ∀ x i, x - φ (S.c i) ∈ Ω → r' x i = w (x - φ (S.c i)) i)
    (h2 : ∀ x ∈ Ω, ∀ i, x - φ (S.c i) ∉ Ω → r' x i = w x (inv i)) :
    ∑ x ∈ Ω, ∑ i, h i (r' x i) = ∑ y ∈ Ω, ∑ j, h (if y + φ (S.c j) ∈ Ω then j else inv j) (w y j) := by
  have hinv2 : ∀ i, inv (inv i) = i := fun i => hv (by rw [hcinv, hcinv, neg_neg])
  rw [← Finset.sum_product', ← Finset.sum_product']
  refine Finset.sum_bij' (fun a _ => if a.1 - φ (S.c a.2) ∈ Ω then (a.1 - φ (S.c a.2), a.2) else (a.1, inv a.2))
    (fun a _ => if a.1 + φ (S.c a.2) ∈ Ω then (a.1 + φ (S.c a.2), a.2) else (a.1, inv a.2)) ?_ ?_ ?_ ?_ ?_
  · rintro ⟨x, i⟩ hx
    simp only [Finset.mem_product, Finset.mem_univ, and_true] at hx ⊢
    split_ifs with h <;> assumption
  · rintro ⟨x, i⟩ hx
    simp only [Finset.mem_product, Finset.mem_univ, and_true] at hx ⊢
    split_ifs with h <;> assumption
  · rintro ⟨x, i⟩ hx
    simp only [Finset.mem_product, Finset.mem_univ, and_true] at hx
    by_cases hm : x - φ (S.c i) ∈ Ω
    · simp [hm, hx]
    · have : x + φ (S.c (inv i)) ∉ Ω := by rw [hcinv, map_neg, ← sub_eq_add_neg]; exact hm
      simp [hm, this, hinv2]
  · rintro ⟨x, i⟩ hx
    simp only [Finset.mem_product, Finset.mem_univ, and_true] at hx
    by_cases hm : x + φ (S.c i) ∈ Ω
    · simp [hm, hx]
    · have : x - φ (S.c (inv i)) ∉ Ω := by rw [hcinv, map_neg, sub_neg_eq_add]; exact hm
      simp [hm, this, hinv2]
  · rintro ⟨x, i⟩ hx
    simp only [Finset.mem_product, Finset.mem_univ, and_true] at hx
    by_cases hm : x - φ (S.c i) ∈ Ω
    · simp [hm, hx, h1 x i hm]
    · have : x + φ (S.c (inv i)) ∉ Ω := by rw [hcinv, map_neg, ← sub_eq_add_neg]; exact hm
      simp [hm, this, hinv2, h2 x hx i hm]

/-- C09: a finite fluid domain all of whose outgoing links are no-slip links keeps its total mass over any number
of steps of any streaming pattern, for any (time- and cell-dependent) collision operator that preserves the mass of
each cell. -/
theorem C09_closed_domain_conserves_mass {V : Type} [AddCommMonoid V] (φ : Vec D →+ G) {S : Stencil D} {p : String}
    (hs : Supported S p) (hc : S.InvClosed) {cells : List G} (hn : cells.Nodup) {links : List (G × Fin S.Q)}
    (hl : AllLinks φ S cells links) (C : ℕ → G → (Fin S.Q → V) → Fin S.Q → V)
    (hC : ∀ t x f, ∑ i, C t x f i = ∑ i, f i) (s : (G × Fin S.Q → V) × (G × Fin S.Q → V)) (n : ℕ) :
    ∃ s' r₀ r, run φ S p C (boundaryHook φ S p noSlipRule links) cells n s = some s' ∧
      readPops φ S p 0 s.1 = some r₀ ∧ readPops φ S p n s'.1 = some r ∧
      ∑ x ∈ cells.toFinset, ∑ i, r x i = ∑ x ∈ cells.toFinset, ∑ i, r₀ x i := by
  induction n with
  | zero =>
    obtain ⟨_, _, _, _, _, _, _, hr, _, _⟩ := runFacts (G := G) (V := V) hs 0
    exact ⟨s, _, _, rfl, hr _ _, hr _ _, rfl⟩
  | succ n ih =>
    obtain ⟨s', r₀, r, h1, h2, h3, h4⟩ := ih
    obtain ⟨ts, a, s'', f', r1, w, r', g1, g2, g3, g4, g5, g6, g7, g8, g9, g10⟩ := closed_step φ hs hc hn hl n (C n) s'
    rw [h3] at g5; cases g5
    obtain ⟨inv, hidx, hcinv, hinv2, -⟩ := exists_inv hs.2.1 hc
    refine ⟨(f', s''.2), r₀, r', by simp [run, h1, g1, g2, g3, g4], h2, g7, ?_⟩
    rw [← h4, closed_sum φ hs.2.1 hcinv cells.toFinset r' w (fun _ v => v) (by simpa using g9)
      (fun x hx i hi => g10 x (by simpa using hx) i (inv i) (by simpa using hi) (hcinv i))]
    refine Finset.sum_congr rfl fun x hx => ?_
    rw [← hC n x (r x)]
    exact Finset.sum_congr rfl fun i _ => g8 x (by simpa using hx) i

/-- The force `force_on_boundary` returns for a no-slip boundary (`boundaryhandling.py:105-124`), component `k`:
`sum over links of stencil[dir] * 2 * f_out(dir)`, with `w` the values `AccessPdfValues(..., 'out')` reads. -/
def forceOnNoSlip {R : Type} [CommRing R] {S : Stencil D} (links : List (G × Fin S.Q)) (w : G → Fin S.Q → R)
    (k : Fin D) : R :=
  (links.map fun l => (S.c l.2 k : R) * (2 * w l.1 l.2)).sum

/-- C43: in a closed no-slip domain with a momentum-conserving collision operator, what the fluid loses in momentum in
a step is exactly the force reported for the walls between the steps, in every streaming pattern. -/
theorem C43_wall_force_is_momentum_loss {R : Type} [CommRing R] (φ : Vec D →+ G) {S : Stencil D} {p : String}
    (hs : Supported S p) (hc : S.InvClosed) {cells : List G} (hn : cells.Nodup) {links : List (G × Fin S.Q)}
    (hl : AllLinks φ S cells links) (t : ℕ) (C : G → (Fin S.Q → R) → Fin S.Q → R) (k : Fin D)
    (hC : ∀ x f, ∑ i, (S.c i k : R) * C x f i = ∑ i, (S.c i k : R) * f i)
    (s : (G × Fin S.Q → R) × (G × Fin S.Q → R)) :
    ∃ ts a s' f' r w r', stepTimestep p t = some ts ∧ getAccessor D p ts = some a ∧
      kernelStep φ S a C cells s = some s' ∧ boundaryHook φ S p noSlipRule links t s'.1 = some f' ∧
      readPops φ S p t s.1 = some r ∧ writtenPops φ S p t s'.1 = some w ∧ readPops φ S p (t + 1) f' = some r' ∧
      ∑ x ∈ cells.toFinset, ∑ i, (S.c i k : R) * r' x i =
        ∑ x ∈ cells.toFinset, ∑ i, (S.c i k : R) * r x i - forceOnNoSlip links w k := by
  obtain ⟨ts, a, s', f', r, w, r', g1, g2, g3, g4, g5, g6, g7, g8, g9, g10⟩ := closed_step φ hs hc hn hl t C s
  refine ⟨ts, a, s', f', r, w, r', g1, g2, g3, g4, g5, g6, g7, ?_⟩
  obtain ⟨inv, hidx, hcinv, hinv2, -⟩ := exists_inv hs.2.1 hc
  rw [closed_sum φ hs.2.1 hcinv cells.toFinset r' w (fun i v => (S.c i k : R) * v) (by simpa using g9)
    (fun x hx i hi => g10 x (by simpa using hx) i (inv i) (by simpa using hi) (hcinv i))]
  have e1 : ∑ x ∈ cells.toFinset, ∑ i, (S.c i k : R) * r x i
      = ∑ x ∈ cells.toFinset, ∑ i, (S.c i k : R) * w x i := by
    refine Finset.sum_congr rfl fun x hx => ?_
    rw [← hC x]
    exact Finset.sum_congr rfl fun i _ => by rw [g8 x (by simpa using hx) i]
  have e2 : forceOnNoSlip links w k = ∑ x ∈ cells.toFinset, ∑ i,
      (if ¬ x + φ (S.c i) ∈ cells.toFinset then (S.c i k : R) * (2 * w x i) else 0) := by
    unfold forceOnNoSlip
    rw [← List.sum_toFinset _ hl.nodup, ← Finset.sum_product', ← Finset.sum_filter]
    refine Finset.sum_congr ?_ fun _ _ => rfl
    ext ⟨y, j⟩
    simp [hl.mem]
  rw [e1, e2, ← Finset.sum_sub_distrib]
  refine Finset.sum_congr rfl fun x _ => ?_
  rw [← Finset.sum_sub_distrib]
  refine Finset.sum_congr rfl fun i _ => ?_
  by_cases h : x + φ (S.c i) ∈ cells.toFinset
  · simp [h]
  · simp only [h, not_false_eq_true, if_true, if_false]
    rw [hcinv]; push_cast [Pi.neg_apply]; ring

/-- Non-vacuity: every finite domain has a complete link list. -/
theorem exists_allLinks (φ : Vec D →+ G) (S : Stencil D) (cells : List G) :
    ∃ links : List (G × Fin S.Q), AllLinks φ S cells links :=
  ⟨((cells.toFinset ×ˢ Finset.univ).filter fun l => l.1 + φ (S.c l.2) ∉ cells).toList,
    Finset.nodup_toList _, by simp⟩

/-- A concrete closed domain: three cells of the plane. Its link list is not empty and some links stay inside. -/
example : ∃ links : List ((ℤ × ℤ) × Fin exStencil.Q), 
    AllLinks (G := ℤ × ℤ) ⟨⟨fun v => (v 0, v 1), rfl⟩, fun _ _ => rfl⟩ exStencil [(0, 0), (1, 0), (1, 1)] links ∧
    links ≠ [] ∧ ((0, 0), ⟨4, by decide⟩) ∉ links := by
  obtain ⟨l, hl⟩ := exists_allLinks (G := ℤ × ℤ) ⟨⟨fun v => (v 0, v 1), rfl⟩, fun _ _ => rfl⟩ exStencil
    [(0, 0), (1, 0), (1, 1)]
  refine ⟨l, hl, ?_, ?_⟩
  · intro h
    have := (hl.mem (0, 0) ⟨1, by decide⟩).2 (by decide +kernel)
    rw [h] at this; cases this
  · rw [hl.mem]; decide +kernel

end Lbm
