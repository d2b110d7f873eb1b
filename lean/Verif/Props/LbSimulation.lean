import Verif.LbSimulation
import Verif.Spec.Simulation
import Verif.Macroscopic
import Verif.Props.HydroMethods
import Mathlib.Algebra.BigOperators.Group.Finset.Basic
import Mathlib.Algebra.BigOperators.Ring.Finset
import Mathlib.Data.Finset.Card
import Mathlib.Data.Int.Interval
import Mathlib.Tactic.FinCases

/-!
# C105: simulations with `LatticeBoltzmannStep`
-/

set_option linter.unusedSectionVars false

namespace Lbm
namespace Simulation

open Spec (Domain)

variable {D : ℕ} {V : Type} {S : Stencil D}

/-- What is used of the synchronisation of ghost layers: the domain does not change, and of every ghost cell outside of periodic sides
the populations that move into the domain are those of the cell it stands for.  Everything else in ghost layers is arbitrary
(`stencil_restricted=True`, `lbstep.py:148-149`). -/
structure SyncOk (d : Domain D) (S : Stencil D) (sync : Pdfs D S.Q V → Pdfs D S.Q V) : Prop where
  inner : ∀ f x i, d.Inner x → sync f (x, i) = f (x, i)
  ghost : ∀ f y i, d.Inner (y + S.c i) → d.Inner (d.image y) → sync f (y, i) = f (d.image y, i)

/-- The step is set up for this domain with these walls: all cells are treated once, the index list has the links between flow and
walls in any order, and what a boundary condition computes for a link depends on the populations of the cell only. -/
structure SetUp (d : Domain D) (W : Vec D → Fin S.Q → (Fin S.Q → V) → V) (p : Step S V) : Prop where
  cells_nodup : p.cells.Nodup
  cells : ∀ x, x ∈ p.cells ↔ d.Inner x
  sync : SyncOk d S p.sync
  links : ∀ x j, (x, j) ∈ p.links ↔ x ∈ d.fluid ∧ d.wall (x + S.c j)
  rule : ∀ x i j w r, S.c i = -S.c j → p.rule x j w r = W x i (w x)

private theorem pull_ts (t : ℕ) : stepTimestep "pull" t = some .both := by
  obtain ⟨ts, h, h2, -⟩ := stepTimestep_spec (p := "pull") (by simp [streamingPatterns]) t
  obtain ⟨l, hl, hm⟩ := h2
  have : getTimesteps "pull" = some [.both] := by decide
  rw [this] at hl
  cases hl
  simp only [List.mem_singleton] at hm
  rw [h, hm]

private theorem pull_acc : getAccessor D "pull" .both = some pull := rfl

private theorem pull_rd : (pull : Accessor D).read S = some fun i => (-S.c i, i) := collect_eq_some.2 fun _ => rfl

private theorem pull_wr : (pull : Accessor D).write S = some fun i => (0, i) := collect_eq_some.2 fun _ => rfl

private theorem pull_read_pops (t : ℕ) (f : Pdfs D S.Q V) :
    readPops (.id _) S "pull" t f = some fun x i => f (x - S.c i, i) := by
  simp [readPops, pull_ts, pull_acc, pull_rd, loc, sub_eq_add_neg]

private theorem pull_written_pops (t : ℕ) (f : Pdfs D S.Q V) :
    writtenPops (.id _) S "pull" t f = some fun x i => f (x, i) := by
  simp [writtenPops, pull_ts, pull_acc, pull_wr, loc]

/-- synchronisation and boundary handling prepare the streaming -/
private theorem prepared {d : Domain D} {W : Vec D → Fin S.Q → (Fin S.Q → V) → V} {p : Step S V} (hv : S.Valid)
    (hc : S.InvClosed) (hd : d.Closed S.c) (h : SetUp d W p) (f : Pdfs D S.Q V) (g : Vec D → Fin S.Q → V)
    (hg : ∀ x ∈ d.fluid, ∀ i, f (x, i) = g x i) :
    ∃ f', boundaryHook (.id _) S "pull" p.rule p.links 0 (p.sync f) = some f' ∧
      ∀ x ∈ d.fluid, ∀ i, f' (x - S.c i, i) = d.stream S.c W g x i := by
  obtain ⟨inv, -, hcinv, -, -⟩ := exists_inv hv hc
  have hs : Supported S "pull" := ⟨by simp [streamingPatterns], hv, fun h => absurd h (by decide), fun h => absurd h (by decide)⟩
  obtain ⟨f', w, r, r', h1, h2, h3, h4, h5, h6⟩ := boundaryHook_sem (.id _) hs hc 0 p.rule d.fluid p.links
    (fun l hl => ⟨((h.links l.1 l.2).1 hl).1, fun hx => hx.2 ((h.links l.1 l.2).1 hl).2⟩)
    (fun l hl u u' v v' hu _ => by
      have hb := ((h.links l.1 l.2).1 hl).1
      rw [h.rule l.1 (inv l.2) l.2 u v (hcinv _), h.rule l.1 (inv l.2) l.2 u' v' (hcinv _)]
      congr 1
      exact funext fun i => hu _ hb i) (p.sync f)
  rw [pull_written_pops] at h2
  rw [pull_read_pops] at h3 h4
  cases h2; cases h3; cases h4
  refine ⟨f', h1, fun x hx i => ?_⟩
  have hown : (fun k => p.sync f (x, k)) = g x := funext fun k => by rw [h.sync.inner f x k hx.1, hg x hx k]
  unfold Domain.stream
  split
  · rename_i hw
    have hm : (x, inv i) ∈ p.links := (h.links _ _).2 ⟨hx, by rw [hcinv, ← sub_eq_add_neg]; exact hw⟩
    refine (h5 x (inv i) i hm (by rw [hcinv, neg_neg])).trans ?_
    rw [h.rule x i (inv i) _ _ (by rw [hcinv, neg_neg]), hown]
  · rename_i hw
    refine (h6 x i fun j hj hm => ?_).trans ?_
    · apply hw
      have := ((h.links _ _).1 hm).2
      rwa [show x - S.c i = x + S.c j by rw [hj, sub_neg_eq_add]]
    · obtain ⟨h7, h8⟩ := hd x hx i
      have hin : d.Inner (d.image (x - S.c i)) := by
        by_contra hn; exact hw (h8 hn)
      refine (h.sync.ghost f (x - S.c i) i (by rw [sub_add_cancel]; exact hx.1) hin).trans (hg _ ⟨hin, ?_⟩ i)
      exact fun hw' => hw ((h7 hin).2 hw')

theorem stream_congr {d : Domain D} {W : Vec D → Fin S.Q → (Fin S.Q → V) → V} (hd : d.Closed S.c)
    {g g' : Vec D → Fin S.Q → V} (h : ∀ x ∈ d.fluid, g x = g' x) : ∀ x ∈ d.fluid, d.stream S.c W g x = d.stream S.c W g' x := by
  intro x hx
  funext i
  unfold Domain.stream
  split
  · rw [h x hx]
  · rename_i hw
    obtain ⟨h7, h8⟩ := hd x hx i
    have hin : d.Inner (d.image (x - S.c i)) := by
      by_contra hn; exact hw (h8 hn)
    rw [h _ ⟨hin, fun hw' => hw ((h7 hin).2 hw')⟩]

variable {d : Domain D} {W : Vec D → Fin S.Q → (Fin S.Q → V) → V} {p : Step S V}

/-- C105. `stream_collide`: after any number of time steps on arrays with ghost layers, the populations stored in the cells of the
flow are those of the flow in the domain, those after the collision. -/
theorem C105_stream_collide (hv : S.Valid) (hc : S.InvClosed) (hd : d.Closed S.c) (h : SetUp d W p) (n : ℕ)
    (s : Pdfs D S.Q V × Pdfs D S.Q V) :
    ∃ s', p.steps "pull" .streamCollide n s = some s' ∧ ∀ x ∈ d.fluid, (fun i => s'.1 (x, i)) =
      (d.streamCollide S.c W p.collide)^[n] (fun x i => s.1 (x, i)) x := by
  induction n with
  | zero => exact ⟨s, rfl, fun _ _ => rfl⟩
  | succ n ih =>
    obtain ⟨s', h1, h2⟩ := ih
    obtain ⟨f', h3, h4⟩ := prepared hv hc hd h s'.1 _ (fun x hx i => congrFun (h2 x hx) i)
    refine ⟨(sweepTwo (.id _) (fun i => (-S.c i, i)) (fun i => (0, i)) p.collide p.cells f' s'.2, f'), ?_, fun x hx => ?_⟩
    · simp only [Step.steps, h1, Step.timeStep, h3, pull_acc, Option.bind_eq_bind, Option.bind_some, kernelStep, pull_rd, pull_wr]
      rfl
    · rw [Function.iterate_succ_apply']
      funext i
      have e := sweepTwo_mem (.id (Vec D)) p.collide (rd := fun i => (-S.c i, i)) (wr := fun i : Fin S.Q => ((0 : Vec D), i))
        (fun _ _ h => h) p.cells f' s'.2 x ((h.cells x).2 hx.1) i
      have e0 : loc (.id (Vec D)) x ((0 : Vec D), i) = (x, i) := by simp [loc]
      rw [e0] at e
      refine e.trans (congrFun (congrArg (p.collide x) (funext fun j => ?_)) i)
      rw [← h4 x hx j]
      simp [loc, sub_eq_add_neg]

/-- C105. `collide_stream`: the same, with the populations before the collision. -/
theorem C105_collide_stream (hv : S.Valid) (hc : S.InvClosed) (hd : d.Closed S.c) (h : SetUp d W p) (pattern : String) (n : ℕ)
    (s : Pdfs D S.Q V × Pdfs D S.Q V) :
    ∃ s', p.steps pattern .collideStream n s = some s' ∧ ∀ x ∈ d.fluid, (fun i => s'.1 (x, i)) =
      (d.collideStream S.c W p.collide)^[n] (fun x i => s.1 (x, i)) x := by
  induction n with
  | zero => exact ⟨s, rfl, fun _ _ => rfl⟩
  | succ n ih =>
    obtain ⟨s', h1, h2⟩ := ih
    have e1 : (collideOnly : Accessor D).read S = some fun i => (0, i) := collect_eq_some.2 fun i => rfl
    have e2 : (collideOnly : Accessor D).write S = some fun i => (0, i) := collect_eq_some.2 fun i => rfl
    set g := sweepInplace (.id (Vec D)) (fun i : Fin S.Q => ((0 : Vec D), i)) (fun i => (0, i)) p.collide p.cells s'.1 with hgdef
    have hg : ∀ x ∈ d.fluid, ∀ i, g (x, i) =
        p.collide x ((d.collideStream S.c W p.collide)^[n] (fun x i => s.1 (x, i)) x) i := by
      intro x hx i
      have e := sweepInplace_mem (.id (Vec D)) p.collide (rd := fun i : Fin S.Q => ((0 : Vec D), i))
        (wr := fun i : Fin S.Q => ((0 : Vec D), i)) (fun _ _ h => h) (fun _ _ h => h) (σ := id) (fun _ => rfl) p.cells
        h.cells_nodup s'.1 x ((h.cells x).2 hx.1) i
      have e0 : ∀ i : Fin S.Q, loc (.id (Vec D)) x ((0 : Vec D), i) = (x, i) := fun i => by simp [loc]
      simp only [e0] at e
      rw [hgdef, e, ← h2 x hx]
    obtain ⟨f', h3, h4⟩ := prepared hv hc hd h g _ hg
    refine ⟨(sweepTwo (.id _) (fun i => (-S.c i, i)) (fun i => (0, i)) (fun _ f => f) p.cells f' s'.2, f'), ?_, fun x hx => ?_⟩
    · have k1 : kernelStep (.id _) S collideOnly p.collide p.cells s' = some (g, s'.2) := by
        simp only [kernelStep, e1, e2, Option.bind_eq_bind, Option.bind_some]
        rfl
      have k2 : kernelStep (.id _) S pull (fun _ f => f) p.cells (f', s'.2) = some
          (sweepTwo (.id _) (fun i => (-S.c i, i)) (fun i => (0, i)) (fun _ f => f) p.cells f' s'.2, f') := by
        simp only [kernelStep, pull_rd, pull_wr, Option.bind_eq_bind, Option.bind_some]
        rfl
      simp only [Step.steps, h1, Step.timeStep, k1, h3, k2, Option.bind_eq_bind, Option.bind_some]
    · rw [Function.iterate_succ_apply']
      funext i
      have e := sweepTwo_mem (.id (Vec D)) (fun _ f => f) (rd := fun i => (-S.c i, i)) (wr := fun i : Fin S.Q => ((0 : Vec D), i))
        (fun _ _ h => h) p.cells f' s'.2 x ((h.cells x).2 hx.1) i
      have e0 : loc (.id (Vec D)) x ((0 : Vec D), i) = (x, i) := by simp [loc]
      rw [e0] at e
      refine e.trans (Eq.trans ?_ (h4 x hx i))
      simp [loc, sub_eq_add_neg]

/-- C105. The two orders compute the same flow: if one starts with the populations before and the other one with those after the same
collision, this is so after every number of steps. -/
theorem C105_orders (hv : S.Valid) (hc : S.InvClosed) (hd : d.Closed S.c) (h : SetUp d W p) (n : ℕ)
    (s t : Pdfs D S.Q V × Pdfs D S.Q V)
    (h0 : ∀ x ∈ d.fluid, (fun i => s.1 (x, i)) = p.collide x fun i => t.1 (x, i)) :
    ∃ s' t', p.steps "pull" .streamCollide n s = some s' ∧ p.steps "pull" .collideStream n t = some t' ∧
      ∀ x ∈ d.fluid, (fun i => s'.1 (x, i)) = p.collide x fun i => t'.1 (x, i) := by
  obtain ⟨s', a1, a2⟩ := C105_stream_collide hv hc hd h n s
  obtain ⟨t', b1, b2⟩ := C105_collide_stream hv hc hd h "pull" n t
  refine ⟨s', t', a1, b1, fun x hx => ?_⟩
  rw [a2 x hx, b2 x hx]
  clear a1 a2 b1 b2
  induction n generalizing x with
  | zero => exact h0 x hx
  | succ n ih =>
    rw [Function.iterate_succ_apply', Function.iterate_succ_apply']
    exact congrArg (p.collide x) (stream_congr hd (fun y hy => ih y hy) x hx)

/-! ### Conservation -/

private theorem image_image_sub {x x' : Vec D} (i : Fin S.Q) (hx : d.Inner x)
    (he : d.image (x - S.c i) = x') : x = d.image (x' + S.c i) := by
  funext k
  have h := congrFun he k
  obtain ⟨h1, h2⟩ := hx k
  simp only [Domain.image, Pi.sub_apply, Pi.add_apply] at h ⊢
  split at h
  · rename_i hp
    rw [if_pos hp, ← h, Int.emod_add_emod, sub_add_cancel, Int.emod_eq_of_lt h1 h2]
  · rename_i hp
    rw [if_neg hp]; omega

/-- Streaming with walls that send back what arrives, up to something that is not counted: what is counted stays the same. -/
theorem stream_sum {M : Type} [AddCommMonoid M] (hv : S.Valid) (hd : d.Closed S.c) (inv : Fin S.Q → Fin S.Q)
    (hinv : ∀ i, S.c (inv i) = -S.c i) (count : Fin S.Q → V → M) (hi : ∀ i, count (inv i) = count i)
    (hW : ∀ x i f, count i (W x i f) = count i (f (inv i))) (A : Finset (Vec D)) (hA : ∀ x, x ∈ A ↔ x ∈ d.fluid)
    (g : Vec D → Fin S.Q → V) : ∑ x ∈ A, ∑ i, count i (d.stream S.c W g x i) = ∑ x ∈ A, ∑ i, count i (g x i) := by
  classical
  have hinv2 : ∀ i, inv (inv i) = i := fun i => hv (by rw [hinv, hinv, neg_neg])
  rw [← Finset.sum_product' (f := fun x i => count i (d.stream S.c W g x i)), ← Finset.sum_product' (f := fun x i => count i (g x i))]
  let σ : Vec D × Fin S.Q → Vec D × Fin S.Q := fun q =>
    if d.wall (q.1 - S.c q.2) then (q.1, inv q.2) else (d.image (q.1 - S.c q.2), q.2)
  have hσ : ∀ q, count q.2 (d.stream S.c W g q.1 q.2) = count (σ q).2 (g (σ q).1 (σ q).2) := by
    intro q
    simp only [Domain.stream, σ]
    split
    · rw [hW, hi]
    · rfl
  have hfl : ∀ x ∈ d.fluid, ∀ i, ¬ d.wall (x - S.c i) → d.image (x - S.c i) ∈ d.fluid := by
    intro x hx i hw
    obtain ⟨h7, h8⟩ := hd x hx i
    have hin : d.Inner (d.image (x - S.c i)) := by
      by_contra hn; exact hw (h8 hn)
    exact ⟨hin, fun hw' => hw ((h7 hin).2 hw')⟩
  have hmap : ∀ q ∈ A ×ˢ (Finset.univ : Finset (Fin S.Q)), σ q ∈ A ×ˢ (Finset.univ : Finset (Fin S.Q)) := by
    rintro ⟨x, i⟩ hq
    simp only [Finset.mem_product, Finset.mem_univ, and_true, hA, σ] at hq ⊢
    split
    · exact hq
    · rename_i hw; exact hfl x hq i hw
  have hmixed : ∀ x ∈ d.fluid, ∀ x' ∈ d.fluid, ∀ i, d.wall (x - S.c i) → ¬ d.wall (x' - S.c (inv i)) →
      d.image (x' - S.c (inv i)) = x → False := by
    intro x hx x' hx' i hw hw' he
    have e1 := image_image_sub (inv i) hx'.1 he
    rw [hinv, ← sub_eq_add_neg] at e1
    obtain ⟨h7, -⟩ := hd x hx i
    rw [← e1] at h7
    exact hx'.2 ((h7 hx'.1).1 hw)
  have hinj : Set.InjOn σ (A ×ˢ (Finset.univ : Finset (Fin S.Q)) : Finset _) := by
    rintro ⟨x, i⟩ hq ⟨x', i'⟩ hq' he
    simp only [Finset.coe_product, Finset.coe_univ, Set.mem_prod, Set.mem_univ, and_true, Finset.mem_coe, hA] at hq hq'
    simp only [σ] at he
    split at he <;> split at he <;> rename_i hw hw' <;> obtain ⟨e1, e2⟩ := Prod.ext_iff.1 he <;> simp only at e1 e2
    · have : i = i' := by rw [← hinv2 i, e2, hinv2]
      rw [e1, this]
    · subst e2
      exact (hmixed x hq x' hq' i hw hw' e1.symm).elim
    · subst e2
      exact (hmixed x' hq' x hq i' hw' hw e1).elim
    · subst e2
      have e3 := image_image_sub i hq.1 rfl
      rw [e1] at e3
      have e4 := image_image_sub i hq'.1 rfl
      rw [e3, ← e4]
  have himg : (A ×ˢ (Finset.univ : Finset (Fin S.Q))).image σ = A ×ˢ Finset.univ :=
    Finset.eq_of_subset_of_card_le (Finset.image_subset_iff.2 hmap) (by rw [Finset.card_image_of_injOn hinj])
  calc _ = ∑ q ∈ A ×ˢ (Finset.univ : Finset (Fin S.Q)), count (σ q).2 (g (σ q).1 (σ q).2) := Finset.sum_congr rfl fun q _ => hσ q
    _ = ∑ q ∈ (A ×ˢ (Finset.univ : Finset (Fin S.Q))).image σ, count q.2 (g q.1 q.2) :=
      (Finset.sum_image (f := fun q : Vec D × Fin S.Q => count q.2 (g q.1 q.2)) hinj).symm
    _ = _ := by rw [himg]

/-- C105. With no-slip walls no mass is lost: the sum of all populations of the flow stays the same for every collision that conserves
it cell by cell. -/
theorem C105_mass {V : Type} [AddCommMonoid V] {p : Step S V} (hv : S.Valid) (hc : S.InvClosed) (hd : d.Closed S.c)
    (inv : Fin S.Q → Fin S.Q) (hinv : ∀ i, S.c (inv i) = -S.c i) (h : SetUp d (fun _ i f => f (inv i)) p)
    (hC : ∀ x f, ∑ i, p.collide x f i = ∑ i, f i) (A : Finset (Vec D)) (hA : ∀ x, x ∈ A ↔ x ∈ d.fluid) (o : Order) (n : ℕ)
    (s : Pdfs D S.Q V × Pdfs D S.Q V) :
    ∃ s', p.steps "pull" o n s = some s' ∧ ∑ x ∈ A, ∑ i, s'.1 (x, i) = ∑ x ∈ A, ∑ i, s.1 (x, i) := by
  have hst : ∀ g : Vec D → Fin S.Q → V, ∑ x ∈ A, ∑ i, d.stream S.c (fun _ i f => f (inv i)) g x i = ∑ x ∈ A, ∑ i, g x i :=
    stream_sum hv hd inv hinv (fun _ v => v) (fun _ => rfl) (fun _ _ _ => rfl) A hA
  cases o with
  | streamCollide =>
    obtain ⟨s', h1, h2⟩ := C105_stream_collide hv hc hd h n s
    refine ⟨s', h1, ?_⟩
    rw [Finset.sum_congr rfl fun x hx => Finset.sum_congr rfl fun i _ => congrFun (h2 x ((hA x).1 hx)) i]
    clear h1 h2
    induction n with
    | zero => rfl
    | succ n ih =>
      rw [Function.iterate_succ_apply', ← ih]
      refine Eq.trans ?_ (hst _)
      exact Finset.sum_congr rfl fun x _ => hC x _
  | collideStream =>
    obtain ⟨s', h1, h2⟩ := C105_collide_stream hv hc hd h "pull" n s
    refine ⟨s', h1, ?_⟩
    rw [Finset.sum_congr rfl fun x hx => Finset.sum_congr rfl fun i _ => congrFun (h2 x ((hA x).1 hx)) i]
    clear h1 h2
    induction n with
    | zero => rfl
    | succ n ih =>
      rw [Function.iterate_succ_apply', ← ih]
      refine (hst _).trans ?_
      exact Finset.sum_congr rfl fun x _ => hC x _

/-! ### What is reported -/

/-- The collision conserves mass and adds the force `F` to the momentum of these populations. -/
def AddsForce {K : Type} [Field K] {Q : ℕ} (c : Fin Q → Fin D → K) (F : Fin D → K) (C : (Fin Q → K) → Fin Q → K) (f : Fin Q → K) :
    Prop := ∑ q, C f q = ∑ q, f q ∧ ∀ a, ∑ q, C f q * c q a = ∑ q, f q * c q a + F a

/-- The getter applied before and after a collision that adds the force. -/
theorem C105_getter {K : Type} [Field K] {Q : ℕ} (c : Fin Q → Fin D → K) (cq : Cqc K D) (csSq : K) (F : Fin D → K)
    (C : (Fin Q → K) → Fin Q → K) (f : Fin Q → K) (h : AddsForce c F C f) :
    (cq.output csSq c (C f)).density = (cq.output csSq c f).density ∧
      ∀ a, (cq.output csSq c (C f)).velocity a =
        (cq.output csSq c f).velocity a + F a / cq.reference (cq.output csSq c f).density := by
  refine ⟨?_, fun a => ?_⟩
  · simp only [Cqc.output, h.1]
  · simp only [Cqc.output, h.1]
    rcases cq.force with _ | ⟨k, F'⟩
    · simp only [h.2 a, add_div]
    · simp only [h.2 a, add_div]; ring

/-- C105, disagreement: `post_run` applies the same getter to populations before the collision (`collide_stream`) and to those after
it (`stream_collide`, the default).  In the same flow the density reported is the same, the velocity reported differs by the force
divided by the reference density in every cell, also in a steady state; it is the same for every flow only without force. -/
theorem C105_reported {K : Type} [Field K] {W : Vec D → Fin S.Q → (Fin S.Q → K) → K} {p : Step S K} (hv : S.Valid)
    (hc : S.InvClosed) (hd : d.Closed S.c) (h : SetUp d W p) (n : ℕ) (s t : Pdfs D S.Q K × Pdfs D S.Q K)
    (h0 : ∀ x ∈ d.fluid, (fun i => s.1 (x, i)) = p.collide x fun i => t.1 (x, i)) (cq : Cqc K D) (csSq : K) (F : Fin D → K) :
    ∃ s' t', p.steps "pull" .streamCollide n s = some s' ∧ p.steps "pull" .collideStream n t = some t' ∧
      ∀ x ∈ d.fluid, AddsForce (fun q a => (S.c q a : K)) F (p.collide x) (fun i => t'.1 (x, i)) →
        (cq.output csSq (fun q a => (S.c q a : K)) fun i => s'.1 (x, i)).density =
          (cq.output csSq (fun q a => (S.c q a : K)) fun i => t'.1 (x, i)).density ∧
        ∀ a, (cq.output csSq (fun q a => (S.c q a : K)) fun i => s'.1 (x, i)).velocity a =
          (cq.output csSq (fun q a => (S.c q a : K)) fun i => t'.1 (x, i)).velocity a +
            F a / cq.reference (cq.output csSq (fun q a => (S.c q a : K)) fun i => t'.1 (x, i)).density := by
  obtain ⟨s', t', a1, a2, a3⟩ := C105_orders hv hc hd h n s t h0
  refine ⟨s', t', a1, a2, fun x hx hF => ?_⟩
  rw [a3 x hx]
  exact C105_getter _ cq csSq F (p.collide x) _ hF

/-- C105. The partner in the other order of a steady flow is steady. -/
theorem C105_steady (hd : d.Closed S.c) (g : Vec D → Fin S.Q → V) (C : Vec D → (Fin S.Q → V) → Fin S.Q → V)
    (hg : ∀ x ∈ d.fluid, d.streamCollide S.c W C g x = g x) :
    ∀ x ∈ d.fluid, d.collideStream S.c W C (d.stream S.c W g) x = d.stream S.c W g x ∧ g x = C x (d.stream S.c W g x) :=
  fun x hx => ⟨stream_congr hd (fun y hy => hg y hy) x hx, (hg x hx).symm⟩

/-- The methods of the package meet the hypothesis of `C105_reported`. -/
theorem C105_method {K : Type} [Field K] [DecidableEq K] [CharZero K] (e : String × String × List (List ℤ))
    (he : e ∈ Tables.predefined) (o : MaxwellOptions K e.2.2) (cq : Cqc K (e.2.2.headD []).length) (hv : o.Valid cq)
    (h : (o.method cq).relax.length = e.2.2.length) (k : ForceKind) (F : Fin (e.2.2.headD []).length → K)
    (hk : k ≠ .centralMoment) (h7 : k = .he → e.2.2.length ≠ 7) (hF : cq.force = some (k, F)) :
    ∃ r, ((o.withForce cq h k F).method cq).getCollisionRule = .ok r ∧
      ∀ f, (cq.compressible = true ∨ k = .he → (cq.equilibriumInput (Spec.vel e.2.2 _) f).rho ≠ 0) →
        AddsForce (Spec.vel e.2.2 _) F r f :=
  C23_predefined e he o cq hv h k F hk h7 hF

/-! ### Streaming patterns -/

/-- C105. In-place patterns are refused. -/
theorem C105_inplace_refused (p : Step S V) (n : ℕ) (s : Pdfs D S.Q V × Pdfs D S.Q V) :
    ∀ pattern ∈ ["aa", "esotwist", "esopull", "esopush"], p.steps pattern .streamCollide (n + 1) s = none := by
  intro pattern hp
  have h : getAccessor D pattern .both = none := by
    simp only [List.mem_cons, List.not_mem_nil, or_false] at hp
    rcases hp with rfl | rfl | rfl | rfl <;> rfl
  unfold Step.steps
  rcases p.steps pattern .streamCollide n s with _ | s
  · rfl
  · simp only [Option.bind_eq_bind, Option.bind_some, Step.timeStep, h]
    rcases boundaryHook (.id _) S "pull" p.rule p.links 0 (p.sync s.1) <;> rfl

/-- For every domain, walls and collision there is a set-up. -/
theorem exists_setUp (d : Domain D) (W : Vec D → Fin S.Q → (Fin S.Q → V) → V) (C : Vec D → (Fin S.Q → V) → Fin S.Q → V)
    (hv : S.Valid) (hc : S.InvClosed) : ∃ p : Step S V, p.collide = C ∧ SetUp d W p := by
  classical
  obtain ⟨inv, -, hcinv, -, -⟩ := exists_inv hv hc
  have hmem : ∀ x, x ∈ (Fintype.piFinset fun k => Finset.Ico (0 : ℤ) (d.size k)) ↔ d.Inner x := by
    intro x; simp [Domain.Inner]
  refine ⟨{ cells := (Fintype.piFinset fun k => Finset.Ico (0 : ℤ) (d.size k)).toList
            sync := fun f q => if d.Inner (d.image q.1) then f (d.image q.1, q.2) else f q
            rule := fun x j w _ => W x (inv j) (w x)
            links := (((Fintype.piFinset fun k => Finset.Ico (0 : ℤ) (d.size k)) ×ˢ (Finset.univ : Finset (Fin S.Q))).filter
              fun q => q.1 ∈ d.fluid ∧ d.wall (q.1 + S.c q.2)).toList
            collide := C }, rfl, Finset.nodup_toList _, fun x => by simp only [Finset.mem_toList, hmem], ⟨?_, ?_⟩, ?_, ?_⟩
  · intro f x i hx
    have : d.image x = x := by
      funext k
      obtain ⟨h1, h2⟩ := hx k
      simp only [Domain.image]
      split
      · exact Int.emod_eq_of_lt h1 h2
      · rfl
    simp [this]
  · intro f y i _ hy
    simp [hy]
  · intro x j
    simp only [Finset.mem_toList, Finset.mem_filter, Finset.mem_product, hmem, Finset.mem_univ, and_true]
    exact ⟨fun h => h.2, fun h => ⟨h.1.1, h⟩⟩
  · intro x i j w r hij
    have : i = inv j := hv (by rw [hij, hcinv])
    rw [this]

/-! ### Examples -/

/-- a channel of 4 × 3 cells, periodic along the first axis, walls in the ghost layers of the second one -/
def exChannel : Domain 2 where
  size := ![4, 3]
  periodic := ![true, false]
  wall := fun y => y 1 < 0 ∨ 3 ≤ y 1

/-- the hypotheses of the theorems are met by a channel with D2Q9 -/
example : exStencil.Valid ∧ exStencil.InvClosed ∧ exChannel.Closed exStencil.c ∧
    (![3, 1] : Vec 2) ∈ exChannel.fluid := by
  refine ⟨by decide +kernel, by decide +kernel, ?_, ?_⟩
  · intro x hx i
    have h0 := hx.1 0
    have h1 := hx.1 1
    constructor
    · intro h
      have := h 1
      simp only [exChannel, Domain.image] at *
      simp at *
    · intro h
      by_contra hw
      apply h
      intro k
      simp only [exChannel] at hw h0 h1
      fin_cases k
      · simp only [exChannel, Domain.image]
        simp
        omega
      · simp only [exChannel, Domain.image]
        simp at hw ⊢
        omega
  · refine ⟨fun k => ?_, by simp [exChannel]⟩
    fin_cases k <;> simp [exChannel]

/-- two cells in one dimension, periodic -/
def exLine : Domain 1 where
  size := ![2]
  periodic := ![true]
  wall := fun _ => False

/-- D1Q3 -/
abbrev exLineStencil : Stencil 1 := ⟨3, ![![0], ![-1], ![1]]⟩

/-- a set-up with no collision -/
def exStep : Step exLineStencil ℤ where
  cells := [![0], ![1]]
  sync := fun f q => f (fun k => q.1 k % 2, q.2)
  rule := noSlipRule
  links := []
  collide := fun _ f => f

/-- one moving particle in the last cell -/
def exState : Pdfs 1 exLineStencil.Q ℤ := fun q => if q.1 = ![1] ∧ q.2.val = 2 then 1 else 0

/-- C105, disagreement: the pattern `'push'` is accepted, but ghost layers are synchronised as for `'pull'`: populations that leave
through a periodic side are lost. -/
theorem C105_push_loses_mass : SetUp exLine (fun _ i f => f ((![0, 2, 1] : Fin 3 → Fin 3) i)) exStep ∧ (∀ x f, ∑ i, exStep.collide x f i = ∑ i, f i) ∧
    (exStep.steps "pull" .streamCollide 1 (exState, fun _ => 0)).map
      (fun s => (exStep.cells.map fun x => s.1 (x, 0) + s.1 (x, 1) + s.1 (x, 2)).sum) = some 1 ∧
    (exStep.steps "push" .streamCollide 1 (exState, fun _ => 0)).map
      (fun s => (exStep.cells.map fun x => s.1 (x, 0) + s.1 (x, 1) + s.1 (x, 2)).sum) = some 0 := by
  refine ⟨⟨by decide, ?_, ⟨?_, ?_⟩, ?_, ?_⟩, fun _ _ => rfl, ?_, ?_⟩
  · intro x
    simp only [exStep, List.mem_cons, List.not_mem_nil, or_false, Domain.Inner, exLine]
    constructor
    · rintro (rfl | rfl) <;> intro k <;> fin_cases k <;> simp
    · intro h
      have := h 0
      simp at this
      have h2 : x 0 = 0 ∨ x 0 = 1 := by omega
      rcases h2 with h2 | h2
      · left; funext k; fin_cases k; exact h2
      · right; funext k; fin_cases k; exact h2
  · intro f x i hx
    simp only [exStep]
    congr 2
    funext k
    have := hx k
    fin_cases k
    simp [exLine] at this ⊢
    omega
  · intro f y i _ _
    simp only [exStep]
    congr 2
    funext k
    fin_cases k
    simp [exLine, Domain.image]
  · intro x j
    simp [exStep, exLine]
  · intro x i j w r hij
    have : ∀ i j : Fin 3, exLineStencil.c i = -exLineStencil.c j → (![0, 2, 1] : Fin 3 → Fin 3) i = j := by decide +kernel
    simp only [exStep, noSlipRule]
    rw [this i j hij]
  · have h3 : exStep.steps "pull" .streamCollide 1 (exState, fun _ => 0) = some (sweepTwo (.id _)
        (fun i => (-exLineStencil.c i, i)) (fun i => (0, i)) exStep.collide exStep.cells (exStep.sync exState) (fun _ => 0),
        exStep.sync exState) := rfl
    have hf : List.finRange exLineStencil.Q = [0, 1, 2] := rfl
    rw [h3]
    simp only [Option.map_some, sweepTwo, cellUpdate, hf, List.foldl, exStep, List.map, Function.update_apply]
    decide +kernel
  · have h3 : exStep.steps "push" .streamCollide 1 (exState, fun _ => 0) = some (sweepTwo (.id _)
        (fun i => (0, i)) (fun i => (exLineStencil.c i, i)) exStep.collide exStep.cells (exStep.sync exState) (fun _ => 0),
        exStep.sync exState) := rfl
    have hf : List.finRange exLineStencil.Q = [0, 1, 2] := rfl
    rw [h3]
    simp only [Option.map_some, sweepTwo, cellUpdate, hf, List.foldl, exStep, List.map, Function.update_apply]
    decide +kernel

end Simulation
end Lbm
