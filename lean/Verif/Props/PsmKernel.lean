import Verif.PsmKernel
import Verif.Props.Psm
import Mathlib.Algebra.Order.Field.Rat
import Mathlib.Algebra.BigOperators.Group.List.Basic

/-!
# The kernel with conditionals for partially saturated cells (C81)
-/

namespace Lbm
namespace PsmKernel

variable {K : Type} [Field K] [LinearOrder K] {D : ℕ}

namespace Spec

/-- The solid collision term of one particle in one direction, per unit of its fraction, for the three options -/
def term {Q : ℕ} (inv : Fin Q → Fin Q) (sc : ℤ) (rate0 : K) (f eqF eqS : Fin Q → K) (i : Fin Q) : K :=
  if sc = 1 then (f (inv i) - eqF (inv i)) - (f i - eqS i)
  else if sc = 2 then (eqS i - f i) + (1 - rate0) * (f i - eqF i)
  else (f (inv i) - eqS (inv i)) - (f i - eqS i)

end Spec

theorem mapM_ok' {α β : Type} (f : α → Except PyErr β) (g : α → β) (l : List α) (h : ∀ a ∈ l, f a = .ok (g a)) :
    l.mapM f = .ok (l.map g) := by
  induction l with
  | nil => rfl
  | cons a l ih =>
    rw [List.mapM_cons, h a (by simp), ih (fun b hb => h b (List.mem_cons_of_mem _ hb))]
    rfl

section

variable {S : Stencil D} {inv : Fin S.Q → Fin S.Q} (hi : ∀ i, S.inverseIndex (S.c i) = some (inv i)) {sc : ℤ}
  (hsc : sc = 1 ∨ sc = 2 ∨ sc = 3)

include hi hsc

theorem particle_eq (eps rate0 : K) (f eqF eqS : Fin S.Q → K) : particleCollision S sc eps rate0 f eqF eqS =
    .ok (fun i => eps * Spec.term inv sc rate0 f eqF eqS i,
      fun a => -∑ q, eps * Spec.term inv sc rate0 f eqF eqS q * (S.c q a : K)) := by
  have hs : ∀ i, solidCollision S sc eps rate0 f eqF eqS i = .ok (eps * Spec.term inv sc rate0 f eqF eqS i) := by
    intro i
    unfold solidCollision Spec.term
    rw [hi i]
    rcases hsc with rfl | rfl | rfl <;> rfl
  have h1 : (List.finRange S.Q).mapM (solidCollision S sc eps rate0 f eqF eqS) = .ok _ :=
    mapM_ok' _ (fun i => eps * Spec.term inv sc rate0 f eqF eqS i) _ (fun i _ => hs i)
  have h2 : ∃ t F, particleCollision S sc eps rate0 f eqF eqS = .ok (t, F) := by
    unfold particleCollision
    rw [h1]
    exact ⟨_, _, rfl⟩
  obtain ⟨t, F, h⟩ := h2
  obtain ⟨ht, hF⟩ := particleCollision_ok h
  have e : t = fun i => eps * Spec.term inv sc rate0 f eqF eqS i := by
    funext i
    have := ht i
    rw [hs i] at this
    injection this with this
    exact this.symm
  rw [h]
  congr 2
  funext a
  rw [hF a, e]

theorem addPsm_eq (rate0 : K) (f eqF base : Fin S.Q → K) (particles : List (K × (Fin S.Q → K))) :
    addPsm S sc rate0 f eqF base particles =
      .ok (fun q => base q + (particles.map fun p => p.1 * Spec.term inv sc rate0 f eqF p.2 q).sum,
        particles.map fun p a => -∑ q, p.1 * Spec.term inv sc rate0 f eqF p.2 q * (S.c q a : K)) := by
  unfold addPsm
  rw [mapM_ok' _ _ particles (fun p _ => particle_eq hi hsc p.1 rate0 f eqF p.2)]
  simp only [bind, Except.bind, pure, Except.pure, List.map_map]
  congr 2
  funext q
  rw [foldl_add_sum (fun t : (Fin S.Q → K) × (Fin D → K) => t.1 q), zero_add, List.map_map]
  rfl

end

theorem collideN_eq {S : Stencil D} {inv : Fin S.Q → Fin S.Q} (hi : ∀ i, S.inverseIndex (S.c i) = some (inv i)) (m : Method S K)
    (hsc : m.sc = 1 ∨ m.sc = 2 ∨ m.sc = 3) (B : K) (e : ℕ → K) (n : ℕ) (f : Fin S.Q → K) :
    collideN m B e n f = .ok (fun q => m.collide (some B) f q +
        ((List.range n).map fun p => e p * Spec.term inv m.sc m.rate0 f (m.eqF f) (m.eqS f p) q).sum,
      (List.range n).map fun p a => -∑ q, e p * Spec.term inv m.sc m.rate0 f (m.eqF f) (m.eqS f p) q * (S.c q a : K)) := by
  unfold collideN
  rw [addPsm_eq hi hsc]
  simp only [List.map_map]
  rfl

/-- The force on a particle -/
def forceOn {S : Stencil D} (inv : Fin S.Q → Fin S.Q) (m : Method S K) (e : ℕ → K) (f : Fin S.Q → K) (p : ℕ) (a : Fin D) : K :=
  -∑ q, e p * Spec.term inv m.sc m.rate0 f (m.eqF f) (m.eqS f p) q * (S.c q a : K)

/-- The populations for the first `n` particles -/
def postN {S : Stencil D} (inv : Fin S.Q → Fin S.Q) (m : Method S K) (B : K) (e : ℕ → K) (n : ℕ) (f : Fin S.Q → K) (q : Fin S.Q) : K :=
  m.collide (some B) f q + ((List.range n).map fun p => e p * Spec.term inv m.sc m.rate0 f (m.eqF f) (m.eqS f p) q).sum

theorem particleBlock_eq {S : Stencil D} {inv : Fin S.Q → Fin S.Q} (hi : ∀ i, S.inverseIndex (S.c i) = some (inv i)) (l : Layout)
    (m : Method S K) (hsc : m.sc = 1 ∨ m.sc = 2 ∨ m.sc = 3) (B : K) (e : ℕ → K) (n : ℕ) (c : Cell S K) :
    particleBlock l m B e n c = .ok { store l c (postN inv m B e n c.src) with
      forces := fun p => if p < n then forceOn inv m e c.src p else c.forces p } := by
  unfold particleBlock
  rw [collideN_eq hi m hsc]
  simp only [bind, Except.bind, pure, Except.pure]
  congr 2
  funext p
  by_cases h : p < n
  · rw [dif_pos (by simpa using h), if_pos h]
    simp only [List.getElem_map, List.getElem_range]
    rfl
  · rw [dif_neg (by simpa using h), if_neg h]

theorem postN_succ_zero {S : Stencil D} (inv : Fin S.Q → Fin S.Q) (m : Method S K) (B : K) (e : ℕ → K) (n : ℕ) (f : Fin S.Q → K)
    (h : e n = 0) : postN inv m B e (n + 1) f = postN inv m B e n f := by
  funext q
  unfold postN
  rw [List.range_succ, List.map_append, List.sum_append, List.map_singleton, List.sum_singleton, h, zero_mul, add_zero]

/-- **C81 (two arrays).**  With separate source and destination arrays, fractions that are not negative, and a total fraction that vanishes
exactly if all individual fractions do, the kernel with conditionals writes the populations of the kernel without conditionals for all
particles; the forces on the particles present are the same as well. -/
theorem C81_two_arrays {S : Stencil D} (hv : S.Valid) (hc : S.InvClosed) (m : Method S K) (hsc : m.sc = 1 ∨ m.sc = 2 ∨ m.sc = 3)
    (h0 : m.collide (some 0) = m.collide none) (M : ℕ) (B : K) (e : ℕ → K) (hB : 0 ≤ B) (he : ∀ p < M, 0 ≤ e p)
    (hBe : B = 0 ↔ ∀ p < M, e p = 0) (c : Cell S K) :
    ∃ c1 c2, psmUpdate .twoArrays m M B (some e) c = .ok c1 ∧ fullUpdate .twoArrays m M B e c = .ok c2 ∧
      c1.dst = c2.dst ∧ c1.src = c.src ∧ c2.src = c.src ∧ ∀ p < M, 0 < e p → c1.forces p = c2.forces p := by
  obtain ⟨inv, hi, -⟩ := exists_inv hv hc
  have key : ∀ (k : ℕ), k ≤ M → ∀ c0 : Cell S K, c0.src = c.src → ∃ c1,
      (List.range k).foldlM (fun c p => if e p > 0 then particleBlock .twoArrays m B e (p + 1) c else .ok c) c0 = .ok c1 ∧
      c1.src = c.src ∧ ((∃ p < k, 0 < e p) → c1.dst = postN inv m B e k c.src) ∧ ((∀ p < k, e p = 0) → c1.dst = c0.dst) ∧
      ∀ p < k, 0 < e p → c1.forces p = forceOn inv m e c.src p := by
    intro k
    induction k with
    | zero => intro _ c0 h; exact ⟨c0, rfl, h, by simp, by simp, by simp⟩
    | succ k ih =>
      intro hk c0 hc0
      obtain ⟨c1, e1, s1, d1, z1, f1⟩ := ih (by omega) c0 hc0
      rw [List.range_succ, List.foldlM_append, e1]
      simp only [List.foldlM_cons, List.foldlM_nil, bind, Except.bind]
      by_cases hp : 0 < e k
      · rw [if_pos hp, particleBlock_eq hi _ m hsc]
        refine ⟨_, rfl, s1, fun _ => ?_, fun h => absurd (h k (by omega)) hp.ne', fun p hp' _ => ?_⟩
        · show postN inv m B e (k + 1) c1.src = _
          rw [s1]
        · show (if p < k + 1 then _ else _) = _
          rw [if_pos hp', s1]
      · have hz : e k = 0 := le_antisymm (not_lt.1 hp) (he k (by omega))
        rw [if_neg hp]
        refine ⟨c1, rfl, s1, ?_, fun h => z1 fun p hp' => h p (by omega), ?_⟩
        · rintro ⟨p, hpk, hpe⟩
          rw [postN_succ_zero inv m B e k _ hz]
          refine d1 ⟨p, ?_, hpe⟩
          rcases Nat.lt_succ_iff_lt_or_eq.1 hpk with h | h
          · exact h
          · exact absurd (h ▸ hpe) hp
        · intro p hpk hpe
          rcases Nat.lt_succ_iff_lt_or_eq.1 hpk with h | h
          · exact f1 p h hpe
          · exact absurd (h ▸ hpe) hp
  obtain ⟨c1, e1, s1, d1, z1, f1⟩ := key M le_rfl (if B ≤ 0 then plainBlock .twoArrays m c else c) (by split_ifs <;> rfl)
  refine ⟨c1, _, e1, particleBlock_eq hi _ m hsc B e M c, ?_, s1, rfl, ?_⟩
  · show c1.dst = postN inv m B e M c.src
    by_cases hall : ∀ p < M, e p = 0
    · have hB0 := hBe.2 hall
      rw [z1 hall, if_pos hB0.le]
      show m.collide none c.src = _
      have hall' : ∀ k ≤ M, postN inv m B e k c.src = m.collide (some B) c.src := by
        intro k
        induction k with
        | zero => intro _; funext q; simp [postN]
        | succ k ih => intro hk; rw [postN_succ_zero _ _ _ _ _ _ (hall k (by omega)), ih (by omega)]
      rw [hall' M le_rfl, hB0, h0]
    · push Not at hall
      obtain ⟨p, hp, hne⟩ := hall
      exact d1 ⟨p, hp, lt_of_le_of_ne (he p hp) (Ne.symm hne)⟩
  · intro p hp hpe
    show c1.forces p = if p < M then _ else _
    rw [f1 p hp hpe, if_pos hp]

/-- **C81 (a single fraction field).**  Without individual fractions only one particle is allowed, and the kernel is then the one of C27. -/
theorem C81_single {S : Stencil D} (hv : S.Valid) (hc : S.InvClosed) (l : Layout) (m : Method S K) (hsc : m.sc = 1 ∨ m.sc = 2 ∨ m.sc = 3)
    (h0 : m.collide (some 0) = m.collide none) (M : ℕ) (B : K) (hB : 0 ≤ B) (c : Cell S K) :
    (M ≠ 1 → psmUpdate l m M B none c = .error .assertion) ∧
    ∃ c1 c2, psmUpdate l m 1 B none c = .ok c1 ∧ fullUpdate l m 1 B (fun _ => B) c = .ok c2 ∧ c1.dst = c2.dst ∧ c1.src = c2.src := by
  obtain ⟨inv, hi, -⟩ := exists_inv hv hc
  refine ⟨fun h => by simp [psmUpdate, h], ?_⟩
  unfold psmUpdate fullUpdate
  rcases hB.eq_or_lt with h | h
  · subst h
    simp only [le_refl, if_true, ne_eq, not_true_eq_false, if_false, lt_irrefl, gt_iff_lt]
    refine ⟨_, _, rfl, particleBlock_eq hi _ m hsc _ _ 1 c, ?_⟩
    have : postN inv m 0 (fun _ => 0) 1 c.src = m.collide none c.src := by
      funext q
      simp [postN, h0]
    rw [this]
    cases l <;> exact ⟨rfl, rfl⟩
  · simp only [not_le.2 h, if_false, ne_eq, not_true_eq_false, gt_iff_lt, h, if_true]
    exact ⟨_, _, particleBlock_eq hi _ m hsc _ _ 1 c, particleBlock_eq hi _ m hsc _ _ 1 c, rfl, rfl⟩

/-- The hypothesis on the collision holds for moment-based methods: a vanishing fraction leaves the rates as they are. -/
theorem C81_fraction_zero {K P : Type} [Field K] [DecidableEq K] {Q : ℕ} [DecidableEq P] (m : MomentMethod K P Q) :
    m.getCollisionRule (some 0) = m.getCollisionRule none := by
  unfold MomentMethod.getCollisionRule
  congr 1
  funext i
  simp [MomentMethod.effectiveRates]

/-- **C81 (in-place patterns).**  If the kernel writes where it reads, two particles in a cell are collided twice: first with one, then,
starting from the result, with both. -/
theorem C81_in_place {S : Stencil D} (hv : S.Valid) (hc : S.InvClosed) (m : Method S K) (hsc : m.sc = 1 ∨ m.sc = 2 ∨ m.sc = 3)
    (B : K) (e : ℕ → K) (hB : 0 < B) (h0 : 0 < e 0) (h1 : 0 < e 1) (c : Cell S K) :
    ∃ c1 f1 F1 f2 F2, psmUpdate .inPlace m 2 B (some e) c = .ok c1 ∧ collideN m B e 1 c.src = .ok (f1, F1) ∧
      collideN m B e 2 f1 = .ok (f2, F2) ∧ c1.src = f2 := by
  obtain ⟨inv, hi, -⟩ := exists_inv hv hc
  have e1 := collideN_eq hi m hsc B e 1 c.src
  refine ⟨⟨postN inv m B e 2 (postN inv m B e 1 c.src), c.dst, fun p => if p < 2 then forceOn inv m e (postN inv m B e 1 c.src) p
    else if p < 1 then forceOn inv m e c.src p else c.forces p⟩, _, _, _, _, ?_, e1, collideN_eq hi m hsc B e 2 _, rfl⟩
  unfold psmUpdate
  simp only [not_le.2 hB, if_false, List.range_succ, List.range_zero, List.nil_append, List.cons_append, List.foldlM_cons, List.foldlM_nil, gt_iff_lt, h0, h1,
    if_true, particleBlock_eq hi _ m hsc, bind, Except.bind]
  rfl

/-- Three velocities in one dimension -/
def line : Stencil 1 := Stencil.ofInts 1 [[0], [1], [-1]]

/-- Equilibrium of a density at rest -/
def restEq (f : Fin line.Q → ℚ) (i : Fin line.Q) : ℚ := (if i.val = 0 then 2 / 3 else 1 / 6) * ((List.finRange line.Q).map f).sum

/-- Relaxation with rate one towards a density at rest, option 3 -/
def restMethod : Method line ℚ where
  collide o f i := f i + (match o with | some B => 1 - B | none => 1) * (restEq f i - f i)
  eqF f i := restEq f i
  eqS f _ i := restEq f i
  sc := 3
  rate0 := 1

/-- All populations in the second direction -/
def restCell : Cell line ℚ := ⟨fun i => if i.val = 1 then 1 else 0, fun _ => 0, fun _ _ => 0⟩

/-- A population after an update -/
def popOf (i : Fin line.Q) : Except PyErr (Cell line ℚ) → Option ℚ
  | .ok c => some (c.src i)
  | .error _ => none

/-- **C81 (in-place patterns give something else).**  The populations differ from those for both particles. -/
theorem C81_in_place_wrong : ∃ (m : Method line ℚ) (B : ℚ) (e : ℕ → ℚ) (c c1 c2 : Cell line ℚ), m.collide (some 0) = m.collide none ∧
    0 < B ∧ 0 < e 0 ∧ 0 < e 1 ∧ B = e 0 + e 1 ∧
    psmUpdate .inPlace m 2 B (some e) c = .ok c1 ∧ fullUpdate .inPlace m 2 B e c = .ok c2 ∧ c1.src ≠ c2.src := by
  have hv : line.Valid ∧ line.InvClosed := by decide +kernel
  obtain ⟨inv, hi, -⟩ := exists_inv hv.1 hv.2
  obtain ⟨c1, -, -, -, -, h, -⟩ := C81_in_place hv.1 hv.2 restMethod (by right; right; rfl) (1 / 2) (fun _ => 1 / 4)
    (by norm_num) (by norm_num) (by norm_num) restCell
  have h2 := particleBlock_eq hi .inPlace restMethod (by right; right; rfl) (1 / 2) (fun _ => 1 / 4) 2 restCell
  refine ⟨restMethod, 1 / 2, fun _ => 1 / 4, restCell, c1, _, ?_, by norm_num, by norm_num, by norm_num, by norm_num, h, h2, ?_⟩
  · funext f i
    simp [restMethod]
  · intro hcon
    have a : popOf ⟨1, by decide⟩ (psmUpdate .inPlace restMethod 2 (1 / 2) (some fun _ => 1 / 4) restCell) ≠
        popOf ⟨1, by decide⟩ (particleBlock .inPlace restMethod (1 / 2) (fun _ => 1 / 4) 2 restCell) := by decide +kernel
    rw [h, h2] at a
    simp only [popOf] at a
    exact a (by rw [hcon])

/-- **C81 (stale forces).**  If no particle is in the cell, the kernel without conditionals sets the forces to zero, the one with
conditionals leaves what is there. -/
theorem C81_stale_forces {S : Stencil D} (hv : S.Valid) (hc : S.InvClosed) (m : Method S K) (hsc : m.sc = 1 ∨ m.sc = 2 ∨ m.sc = 3)
    (M : ℕ) (c : Cell S K) :
    ∃ c1 c2, psmUpdate .twoArrays m M 0 (some fun _ => 0) c = .ok c1 ∧ fullUpdate .twoArrays m M 0 (fun _ => 0) c = .ok c2 ∧
      ∀ p < M, c1.forces p = c.forces p ∧ c2.forces p = 0 := by
  obtain ⟨inv, hi, -⟩ := exists_inv hv hc
  have key : ∀ (l : List ℕ) (c0 : Cell S K),
      l.foldlM (fun c p => if (fun _ => (0 : K)) p > 0 then particleBlock .twoArrays m 0 (fun _ => 0) (p + 1) c else .ok c) c0 = .ok c0 := by
    intro l
    induction l with
    | nil => intro c0; rfl
    | cons a l ih =>
      intro c0
      rw [List.foldlM_cons]
      simp only [gt_iff_lt, lt_irrefl, if_false, bind, Except.bind] at ih ⊢
      exact ih c0
  refine ⟨_, _, key _ _, particleBlock_eq hi _ m hsc _ _ M c, fun p hp => ⟨?_, ?_⟩⟩
  · rw [if_pos le_rfl]
    rfl
  · show (if p < M then _ else _) = _
    rw [if_pos hp]
    funext a
    simp [forceOn]

/-- **C81 (cells left out).**  If the total fraction is positive but no individual one is, no block is executed: the destination keeps
its old populations. -/
theorem C81_left_out {S : Stencil D} (l : Layout) (m : Method S K) (M : ℕ) (B : K) (e : ℕ → K) (hB : 0 < B) (he : ∀ p, e p ≤ 0) (c : Cell S K) :
    psmUpdate l m M B (some e) c = .ok c := by
  unfold psmUpdate
  rw [if_neg (not_le.2 hB)]
  show (List.range M).foldlM _ c = _
  generalize List.range M = ps
  induction ps with
  | nil => rfl
  | cons a ps ih =>
    rw [List.foldlM_cons, if_neg (not_lt.2 (he a))]
    exact ih

/-- Two particles in a cell of the method at rest -/
example : ∃ c1 c2, psmUpdate .twoArrays restMethod 2 (1 / 2) (some fun _ => 1 / 4) restCell = .ok c1 ∧
    fullUpdate .twoArrays restMethod 2 (1 / 2) (fun _ => 1 / 4) restCell = .ok c2 ∧ c1.dst = c2.dst := by
  have hv : line.Valid ∧ line.InvClosed := by decide +kernel
  obtain ⟨c1, c2, h1, h2, h, -⟩ := C81_two_arrays hv.1 hv.2 restMethod (by right; right; rfl) (by funext f i; simp [restMethod]) 2 (1 / 2)
    (fun _ => 1 / 4) (by norm_num) (fun _ _ => by norm_num) ⟨fun h => by norm_num at h, fun h => by have := h 0 (by norm_num); norm_num at this⟩
    restCell
  exact ⟨c1, c2, h1, h2, h⟩

end PsmKernel
end Lbm
