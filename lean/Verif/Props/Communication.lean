/-
Property theorem C12: periodicity handling.
-/
import Verif.Communication
import Verif.Props.BoundaryFormulas
import Mathlib.Tactic.Ring
import Mathlib.Algebra.Order.Ring.Int

set_option linter.unusedSectionVars false
set_option linter.unnecessarySeqFocus false

namespace Lbm

variable {D : ℕ} {V : Type}

theorem pull_write (S : Stencil D) : (pull : Accessor D).write S = some fun i => (0, i) :=
  collect_eq_some.2 fun _ => rfl

/-- What one copy does with one ghost layer: the slot with cell `z` is a destination of the pair `(C, i)` when
`z - o` (with `o` the write offset) is a cell `s` outside the domain exactly in the components of `C`, on the side
opposite to `C`; and (except for the pull pattern) the reading cell `s + c` is inside in the other components. -/
def IsDst (N : Fin D → ℕ) (S : Stencil D) (p : String) (wr : Fin S.Q → Access D S.Q) (C : Vec D) (i : Fin S.Q)
    (s : Vec D × Fin S.Q) : Prop :=
  s.2 = (wr i).2 ∧ ∀ k,
    (C k = 1 → s.1 k - (wr i).1 k = 0) ∧ (C k = -1 → s.1 k - (wr i).1 k = N k + 1) ∧
    (C k = 0 → 1 ≤ s.1 k - (wr i).1 k ∧ s.1 k - (wr i).1 k ≤ N k ∧
      (p ≠ "pull" → 1 ≤ s.1 k - (wr i).1 k + S.c i k ∧ s.1 k - (wr i).1 k + S.c i k ≤ N k))

/-- One copy with one ghost layer, in closed form. -/
theorem copy_sem (N : Fin D → ℕ) (hN : ∀ k, 1 ≤ N k) {S : Stencil D} {p : String} {wr : Fin S.Q → Access D S.Q}
    (hbox : ∀ i k, (wr i).1 k = 0 ∨ (wr i).1 k = S.c i k) (hpull : p = "pull" → ∀ i k, (wr i).1 k = 0)
    {C : Vec D} {i : Fin S.Q} (hC : ∀ k, C k = -1 ∨ C k = 0 ∨ C k = 1)
    (hi : ∀ k, if C k = 0 then S.c i k = -1 ∨ S.c i k = 0 ∨ S.c i k = 1 else S.c i k = C k)
    (f : Vec D × Fin S.Q → V) :
    ∃ op f', commSlices S p 1 wr C i = some op ∧ op.exec (fun k => N k + 2 * (1 : ℕ)) f = some f' ∧
      (∀ s, IsDst N S p wr C i s → f' s = f (fun k => s.1 k + N k * C k, s.2)) ∧
      (∀ s, ¬ IsDst N S p wr C i s → f' s = f s) := by
  classical
  -- the source slices
  have hsrc : ∀ k, ∃ s : Sl, (do
      let s := Sl.fixLengthOne (← Sl.beforeGhostLayer 1 (C k))
      if p ≠ "pull" then do
        let s ← s.trim (S.c i k - C k)
        some (s.shift ((wr i).1 k))
      else some s) = some s ∧
      Sl.Compat (N k + 2 * (1 : ℕ)) s (s.shift (neighbourTransform 1 (C k))) ∧
      (∀ z, (s.shift (neighbourTransform 1 (C k))).Mem (N k + 2 * (1 : ℕ)) z ↔
        ((C k = 1 → z - (wr i).1 k = 0) ∧ (C k = -1 → z - (wr i).1 k = N k + 1) ∧
          (C k = 0 → 1 ≤ z - (wr i).1 k ∧ z - (wr i).1 k ≤ N k ∧
            (p ≠ "pull" → 1 ≤ z - (wr i).1 k + S.c i k ∧ z - (wr i).1 k + S.c i k ≤ N k)))) ∧
      s.base (N k + 2 * (1 : ℕ)) - (s.shift (neighbourTransform 1 (C k))).base (N k + 2 * (1 : ℕ)) = N k * C k := by
    intro k
    have hNk := hN k
    have hb := hbox i k
    have hik := hi k
    have hp := fun h => hpull h i k
    generalize (wr i).1 k = o at *
    generalize S.c i k = c at *
    rcases hC k with h | h | h <;> rw [h] at hik ⊢ <;> by_cases hpp : p = "pull"
    · have ho := hp hpp
      subst ho
      refine ⟨.int 1, by simp [Sl.beforeGhostLayer, Sl.fixLengthOne, hpp], ?_, ?_, ?_⟩
      · simp [Sl.shift, neighbourTransform, Sl.Compat, Sl.resolve]; omega
      · intro z
        simp [Sl.shift, neighbourTransform, Sl.Mem, Sl.resolve]; omega
      · simp [Sl.shift, neighbourTransform, Sl.base, Sl.resolve]; omega
    · refine ⟨.int (1 + o), by simp [Sl.beforeGhostLayer, Sl.fixLengthOne, hpp, Sl.trim, Sl.shift], ?_, ?_, ?_⟩
      · simp at hik
        simp only [Sl.shift, neighbourTransform, Sl.Compat, Sl.resolve]
        split_ifs <;> omega
      · intro z
        simp at hik
        subst hik
        rcases hb with hb | hb <;> subst hb <;> simp [Sl.shift, neighbourTransform, Sl.Mem, Sl.resolve] <;> omega
      · simp at hik
        simp only [Sl.shift, neighbourTransform, Sl.base, Sl.resolve]
        split_ifs <;> omega
    · have ho := hp hpp
      subst ho
      refine ⟨.range 1 (some (-1)), by simp [Sl.beforeGhostLayer, Sl.fixLengthOne, hpp], ?_, ?_, ?_⟩
      · simp [Sl.shift, neighbourTransform, Sl.Compat]
      · intro z
        simp [Sl.shift, neighbourTransform, Sl.Mem, Sl.clamp, Sl.resolve, hpp]; omega
      · simp [Sl.shift, neighbourTransform]
    · simp only [if_true] at hik
      rcases hik with hc | hc | hc <;> subst hc
      · refine ⟨.range (1 + 1 + o) (some (-1 + o)), by
          simp [Sl.beforeGhostLayer, Sl.fixLengthOne, hpp, Sl.trim, Sl.shift], ?_, ?_, ?_⟩
        · simp [Sl.shift, neighbourTransform, Sl.Compat]
        · intro z
          rcases hb with hb | hb <;> subst hb <;>
            simp [Sl.shift, neighbourTransform, Sl.Mem, Sl.clamp, Sl.resolve, hpp] <;> omega
        · simp [Sl.shift, neighbourTransform]
      · refine ⟨.range (1 + o) (some (-1 + o)), by
          simp [Sl.beforeGhostLayer, Sl.fixLengthOne, hpp, Sl.trim, Sl.shift], ?_, ?_, ?_⟩
        · simp [Sl.shift, neighbourTransform, Sl.Compat]
        · intro z
          rcases hb with hb | hb <;> subst hb <;>
            simp [Sl.shift, neighbourTransform, Sl.Mem, Sl.clamp, Sl.resolve, hpp] <;> omega
        · simp [Sl.shift, neighbourTransform]
      · refine ⟨.range (1 + o) (some (-1 - 1 + o)), by
          simp [Sl.beforeGhostLayer, Sl.fixLengthOne, hpp, Sl.trim, Sl.shift], ?_, ?_, ?_⟩
        · simp [Sl.shift, neighbourTransform, Sl.Compat]
        · intro z
          rcases hb with hb | hb <;> subst hb <;>
            simp [Sl.shift, neighbourTransform, Sl.Mem, Sl.clamp, Sl.resolve, hpp] <;> omega
        · simp [Sl.shift, neighbourTransform]
    · have ho := hp hpp
      subst ho
      refine ⟨.int (-2), by simp [Sl.beforeGhostLayer, Sl.fixLengthOne, hpp], ?_, ?_, ?_⟩
      · simp [Sl.shift, neighbourTransform, Sl.Compat, Sl.resolve]; omega
      · intro z
        simp [Sl.shift, neighbourTransform, Sl.Mem, Sl.resolve]
      · simp [Sl.shift, neighbourTransform, Sl.base, Sl.resolve]
    · refine ⟨.int (-2 + o), by simp [Sl.beforeGhostLayer, Sl.fixLengthOne, hpp, Sl.trim, Sl.shift], ?_, ?_, ?_⟩
      · simp at hik
        simp only [Sl.shift, neighbourTransform, Sl.Compat, Sl.resolve]
        split_ifs <;> omega
      · intro z
        simp at hik
        subst hik
        rcases hb with hb | hb <;> subst hb <;> simp [Sl.shift, neighbourTransform, Sl.Mem, Sl.resolve] <;> omega
      · simp at hik
        simp only [Sl.shift, neighbourTransform, Sl.base, Sl.resolve]
        split_ifs <;> omega
  choose s hs1 hs2 hs3 hs4 using hsrc
  refine ⟨⟨s, fun k => (s k).shift (neighbourTransform 1 (C k)), (wr i).2⟩, fun z =>
      if z.2 = (wr i).2 ∧ ∀ k, ((s k).shift (neighbourTransform 1 (C k))).Mem (N k + 2 * (1 : ℕ)) (z.1 k) then
        f (fun k => z.1 k - ((s k).shift (neighbourTransform 1 (C k))).base (N k + 2 * (1 : ℕ)) +
          (s k).base (N k + 2 * (1 : ℕ)), z.2)
      else f z, ?_, ?_, ?_, ?_⟩
  · unfold commSlices
    have h : (collect fun k => do
      let s := Sl.fixLengthOne (← Sl.beforeGhostLayer 1 (C k))
      if p ≠ "pull" then do
        let s ← s.trim (S.c i k - C k)
        some (s.shift ((wr i).1 k))
      else some s) = some s := collect_eq_some.2 hs1
    rw [h]; rfl
  · unfold CopyOp.exec
    rw [if_pos hs2]
  · rintro ⟨z, j⟩ ⟨h1, h2⟩
    simp only at h1 h2 ⊢
    rw [if_pos ⟨h1, fun k => (hs3 k _).2 (h2 k)⟩]
    congr 2
    funext k
    have := hs4 k
    omega
  · rintro ⟨z, j⟩ h
    simp only
    rw [if_neg]
    rintro ⟨h1, h2⟩
    exact h ⟨h1, fun k => (hs3 k _).1 (h2 k)⟩

section
variable (N : Fin D → ℕ) {S : Stencil D} {p : String} {wr : Fin S.Q → Access D S.Q}

/-- A slot is the destination of at most one pair. -/
theorem isDst_unique (hN : ∀ k, 1 ≤ N k) (hw : Function.Injective fun i => (wr i).2) {C C' : Vec D} {i i' : Fin S.Q}
    (hC : ∀ k, C k = -1 ∨ C k = 0 ∨ C k = 1) (hC' : ∀ k, C' k = -1 ∨ C' k = 0 ∨ C' k = 1)
    {s : Vec D × Fin S.Q} (h : IsDst N S p wr C i s) (h' : IsDst N S p wr C' i' s) : C = C' ∧ i = i' := by
  obtain rfl : i = i' := hw (h.1.symm.trans h'.1)
  refine ⟨funext fun k => ?_, rfl⟩
  obtain ⟨a1, a2, a3⟩ := h.2 k
  obtain ⟨b1, b2, b3⟩ := h'.2 k
  have := fun h => (a3 h).1
  have := fun h => (a3 h).2.1
  have := fun h => (b3 h).1
  have := fun h => (b3 h).2.1
  clear a3 b3
  have := hN k
  have e := hC k
  have e' := hC' k
  omega

/-- A source slot is never a destination. -/
theorem src_not_dst (hw : Function.Injective fun i => (wr i).2) (hN : ∀ k, 1 ≤ N k) {C C' : Vec D} {i i' : Fin S.Q}
    (hC : ∀ k, C k = -1 ∨ C k = 0 ∨ C k = 1) (hC' : ∀ k, C' k = -1 ∨ C' k = 0 ∨ C' k = 1) (hne : ∃ k, C' k ≠ 0)
    {s : Vec D × Fin S.Q} (h : IsDst N S p wr C i s) :
    ¬ IsDst N S p wr C' i' (fun k => s.1 k + N k * C k, s.2) := by
  intro h'
  obtain rfl : i = i' := hw (h.1.symm.trans h'.1)
  obtain ⟨k, hk⟩ := hne
  obtain ⟨a1, a2, a3⟩ := h.2 k
  obtain ⟨b1, b2, b3⟩ := h'.2 k
  have := fun h => (a3 h).1
  have := fun h => (a3 h).2.1
  have := hN k
  clear a3 b3
  simp only at b1 b2
  have e' := hC' k
  rcases hC k with e | e | e <;> rw [e] at b1 b2 a1 a2 <;> omega

/-- Executing all copies: every destination slot receives the original content of its source slot, whatever the
order, and nothing else changes. -/
theorem runCopies_sem (hN : ∀ k, 1 ≤ N k) (hw : Function.Injective fun i => (wr i).2)
    (hbox : ∀ i k, (wr i).1 k = 0 ∨ (wr i).1 k = S.c i k) (hpull : p = "pull" → ∀ i k, (wr i).1 k = 0)
    (pairs : List (Vec D × Fin S.Q))
    (hp : ∀ q ∈ pairs, (∀ k, q.1 k = -1 ∨ q.1 k = 0 ∨ q.1 k = 1) ∧ (∃ k, q.1 k ≠ 0) ∧
      ∀ k, if q.1 k = 0 then S.c q.2 k = -1 ∨ S.c q.2 k = 0 ∨ S.c q.2 k = 1 else S.c q.2 k = q.1 k)
    (f : Vec D × Fin S.Q → V) :
    ∃ f', runCopies (fun k => N k + 2 * (1 : ℕ)) S p 1 wr pairs f = some f' ∧
      (∀ q ∈ pairs, ∀ s, IsDst N S p wr q.1 q.2 s → f' s = f (fun k => s.1 k + N k * q.1 k, s.2)) ∧
      (∀ s, (∀ q ∈ pairs, ¬ IsDst N S p wr q.1 q.2 s) → f' s = f s) := by
  induction pairs generalizing f with
  | nil => exact ⟨f, rfl, by simp, fun _ _ => rfl⟩
  | cons q rest ih =>
    obtain ⟨C, i⟩ := q
    obtain ⟨hC, hCne, hCi⟩ := hp _ (List.mem_cons_self ..)
    obtain ⟨op, f₁, h1, h2, h3, h4⟩ := copy_sem N hN hbox hpull hC hCi f
    obtain ⟨f', g1, g2, g3⟩ := ih (fun q hq => hp q (List.mem_cons_of_mem _ hq)) f₁
    refine ⟨f', ?_, ?_, ?_⟩
    · simp only [runCopies, h1, Option.bind_eq_bind, Option.bind_some]
      rw [h2]; exact g1
    · intro q hq s hs
      obtain ⟨hqC, hqne, hqi⟩ := hp q hq
      by_cases hr : q ∈ rest
      · rw [g2 q hr s hs, h4]
        exact src_not_dst N hw hN hqC hC hCne hs
      · obtain rfl : q = (C, i) := by simpa [hr] using hq
        rw [g3, h3 s hs]
        intro q' hq' hd
        obtain ⟨e1, e2⟩ := isDst_unique N hN hw hqC (hp q' (List.mem_cons_of_mem _ hq')).1 hs hd
        exact hr (by rw [show (C, i) = q' from Prod.ext e1 e2]; exact hq')
    · intro s hs
      rw [g3 s fun q hq => hs q (List.mem_cons_of_mem _ hq), h4 s (hs _ (List.mem_cons_self ..))]

end

/-- Inner cells of an array with one ghost layer. -/
def Inner (N : Fin D → ℕ) (x : Vec D) : Prop := ∀ k, 1 ≤ x k ∧ x k ≤ N k

/-- C12 (one ghost layer): for every domain size, periodicity flags, pattern, and every order of the copies, the
periodicity handling succeeds, and afterwards
* a population an inner cell will read in the next step along direction `i` is the one sent out by the inner cell
  the torus (periodic in the flagged axes) has at `x - c_i`;
* a population coming in over a border that is not periodic is left alone;
* what inner cells have sent out is left alone.

Full claim: the same for every number of ghost layers; false, see `C12_two_ghost_layers_wrong`. -/
theorem C12_periodicity_partial (N : Fin D → ℕ) (hN : ∀ k, 1 ≤ N k) {S : Stencil D} {p : String}
    (hs : Supported S p) (hc : ∀ i k, S.c i k = -1 ∨ S.c i k = 0 ∨ S.c i k = 1) (per : Fin D → Bool)
    (pairs : List (Vec D × Fin S.Q)) (hpairs : ∀ q, q ∈ pairs ↔ q ∈ commPairs S per) (t : ℕ)
    (f : Vec D × Fin S.Q → V) :
    ∃ f' r r' w w', periodicHook N 1 S p pairs t f = some f' ∧
      readPops (.id _) S p (t + 1) f = some r ∧ readPops (.id _) S p (t + 1) f' = some r' ∧
      writtenPops (.id _) S p t f = some w ∧ writtenPops (.id _) S p t f' = some w' ∧
      (∀ x, Inner N x → ∀ i, ∀ y, Inner N y →
        (∀ k, y k = (x - S.c i) k ∨ (per k = true ∧ (N k : ℤ) ∣ y k - (x - S.c i) k)) → r' x i = w y i) ∧
      (∀ x, Inner N x → ∀ i, (∃ k, per k = false ∧ ¬ (1 ≤ (x - S.c i) k ∧ (x - S.c i) k ≤ N k)) →
        r' x i = r x i) ∧
      (∀ x, Inner N x → w' x = w x) := by
  obtain ⟨ts, a, rd, wr, rd', e1, F, hr, hwr, hr'⟩ := runFacts (G := Vec D) (V := V) hs t
  have hbox := wr_box F.acc F.write
  have hpull : p = "pull" → ∀ i k, (wr i).1 k = 0 := by
    rintro rfl i k
    have ha := F.acc
    have : ts = .both := by
      have : stepTimestep "pull" t = some .both := by simp [stepTimestep, getTimesteps, isInplace, streamingPatterns, Nat.mod_one]
      rw [e1] at this; exact Option.some.inj this
    subst this
    have hp : getAccessor D "pull" .both = some pull := rfl
    rw [hp] at ha
    cases ha
    have := collect_eq_some.1 F.write i
    rw [← Option.some.inj this]; rfl
  have hq : ∀ q ∈ pairs, (∀ k, q.1 k = -1 ∨ q.1 k = 0 ∨ q.1 k = 1) ∧ (∃ k, q.1 k ≠ 0) ∧
      ∀ k, if q.1 k = 0 then S.c q.2 k = -1 ∨ S.c q.2 k = 0 ∨ S.c q.2 k = 1 else S.c q.2 k = q.1 k := by
    intro q h
    obtain ⟨h1, h2, h3⟩ := mem_commPairs.1 ((hpairs q).1 h)
    exact ⟨h1, h2.2, h3⟩
  obtain ⟨f', g1, g2, g3⟩ := runCopies_sem (p := p) N hN F.wr_inj hbox hpull pairs hq f
  -- slots in terms of the sending cell
  have hloc : ∀ x i, loc (.id (Vec D)) x (rd' i) = loc (.id (Vec D)) (x - S.c i) (wr i) := by
    intro x i
    rw [loc_wr _ F]; simp
  refine ⟨f', _, _, _, _, ?_, hr' f _, hr' f' _, hwr f _, hwr f' _, ?_, ?_, ?_⟩
  · simp only [periodicHook, e1, F.acc, F.write, Option.bind_eq_bind, Option.bind_some]
    exact_mod_cast g1
  · intro x hx i y hy hxy
    simp only [hloc]
    -- the communication direction
    let C : Vec D := fun k => if (x - S.c i) k < 1 then 1 else if N k < (x - S.c i) k then -1 else 0
    have hCy : ∀ k, (x - S.c i) k + N k * C k = y k ∧ (C k ≠ 0 → per k = true) ∧ (C k ≠ 0 → S.c i k = C k) := by
      intro k
      have h1 := hx k
      have h2 := hy k
      have h3 := hc i k
      have h5 := hN k
      have h4 : (y k = (x - S.c i) k) ∨ (per k = true ∧ (y k = (x - S.c i) k ∨ y k = (x - S.c i) k + N k ∨
          y k = (x - S.c i) k - N k)) := by
        rcases hxy k with h | ⟨h, e, he⟩
        · exact Or.inl h
        · right
          refine ⟨h, ?_⟩
          simp only [Pi.sub_apply] at he ⊢
          have hb : -(N k : ℤ) ≤ y k - (x k - S.c i k) ∧ y k - (x k - S.c i k) ≤ N k := by omega
          have he1 : e < 2 := by
            by_contra hcon
            have : (N k : ℤ) * 2 ≤ N k * e := Int.mul_le_mul_of_nonneg_left (by omega) (by omega)
            omega
          have he2 : -2 < e := by
            by_contra hcon
            have : (N k : ℤ) * e ≤ N k * (-2) := Int.mul_le_mul_of_nonneg_left (by omega) (by omega)
            omega
          have : e = -1 ∨ e = 0 ∨ e = 1 := by omega
          rcases this with rfl | rfl | rfl <;> omega
      simp only [C, Pi.sub_apply] at h4 ⊢
      split_ifs with c1 c2
      · refine ⟨by omega, fun _ => ?_, fun _ => by omega⟩
        rcases h4 with h4 | h4
        · omega
        · exact h4.1
      · refine ⟨by omega, fun _ => ?_, fun _ => by omega⟩
        rcases h4 with h4 | h4
        · omega
        · exact h4.1
      · refine ⟨?_, by simp, by simp⟩
        rcases h4 with h4 | ⟨-, h4⟩ <;> omega
    have hCv : ∀ k, C k = -1 ∨ C k = 0 ∨ C k = 1 := by
      intro k; simp only [C]; split_ifs <;> simp
    have hslot : IsDst N S p wr C i (loc (.id (Vec D)) (x - S.c i) (wr i)) := by
      refine ⟨rfl, fun k => ?_⟩
      have h1 := hx k
      have h3 := hc i k
      simp only [loc, AddMonoidHom.id_apply, Pi.add_apply, Pi.sub_apply, C]
      refine ⟨?_, ?_, ?_⟩
      · split_ifs with c1 c2
        · intro _; omega
        · intro h; exact absurd h (by decide)
        · intro h; exact absurd h (by decide)
      · split_ifs with c1 c2
        · intro h; exact absurd h (by decide)
        · intro _; omega
        · intro h; exact absurd h (by decide)
      · split_ifs with c1 c2
        · intro h; exact absurd h (by decide)
        · intro h; exact absurd h (by decide)
        · intro _; exact ⟨by omega, by omega, fun _ => ⟨by omega, by omega⟩⟩
    have hsrc : (fun k => (loc (.id (Vec D)) (x - S.c i) (wr i)).1 k + N k * C k,
        (loc (.id (Vec D)) (x - S.c i) (wr i)).2) = loc (.id (Vec D)) y (wr i) := by
      refine Prod.ext (funext fun k => ?_) rfl
      have := (hCy k).1
      simp only [loc, AddMonoidHom.id_apply, Pi.add_apply]
      omega
    by_cases hz : ∃ k, C k ≠ 0
    · have hmem : (C, i) ∈ pairs := by
        rw [hpairs, mem_commPairs]
        refine ⟨hCv, ⟨fun k => (hCy k).2.1, hz⟩, fun k => ?_⟩
        split_ifs with h0
        · exact hc i k
        · exact (hCy k).2.2 h0
      rw [g2 (C, i) hmem _ hslot, hsrc]
    · rw [g3]
      · push Not at hz
        rw [← hsrc]
        congr 1
        refine Prod.ext (funext fun k => ?_) rfl
        simp [hz k]
      · intro q hq' hd
        have := (isDst_unique N hN F.wr_inj hCv (hq q hq').1 hslot hd).1
        exact hz (this ▸ (hq q hq').2.1)
  · rintro x hx i ⟨k, hk, hout⟩
    simp only [hloc]
    apply g3
    intro q hq' hd
    obtain ⟨-, hcd, -⟩ := mem_commPairs.1 ((hpairs q).1 hq')
    have h0 : q.1 k = 0 := by
      by_contra h
      have := hcd.1 k h
      rw [hk] at this; cases this
    have hii : q.2 = i := F.wr_inj (show (wr q.2).2 = (wr i).2 from hd.1.symm)
    obtain ⟨-, -, h3⟩ := hd.2 k
    obtain ⟨h3, h4, -⟩ := h3 h0
    rw [hii] at h3 h4
    simp only [loc, AddMonoidHom.id_apply, Pi.add_apply] at h3 h4
    apply hout
    constructor <;> omega
  · intro x hx
    funext i
    apply g3
    intro q hq' hd
    obtain ⟨k, hk⟩ := (hq q hq').2.1
    have hii : q.2 = i := F.wr_inj (show (wr q.2).2 = (wr i).2 from hd.1.symm)
    obtain ⟨h1, h2, -⟩ := hd.2 k
    rw [hii] at h1 h2
    simp only [loc, AddMonoidHom.id_apply, Pi.add_apply] at h1 h2
    have := hx k
    rcases (hq q hq').1 k with h | h | h
    · have := h2 h; omega
    · exact hk h
    · have := h1 h; omega

/-- C12, whole runs: a simulation of any length on an array with one ghost layer, all axes periodic, kernels over the
inner cells and periodicity handling after each step, computes in the inner cells exactly the textbook scheme on the
torus `G` with projection `ψ`. -/
theorem C12_periodic_run_is_torus {G : Type} [AddCommGroup G] (N : Fin D → ℕ) (hN : ∀ k, 1 ≤ N k)
    (ψ : Vec D →+ G) (hψ : ∀ v, ψ v = 0 ↔ ∀ k, (N k : ℤ) ∣ v k) {S : Stencil D} {p : String} (hs : Supported S p)
    (hc : ∀ i k, S.c i k = -1 ∨ S.c i k = 0 ∨ S.c i k = 1)
    (pairs : List (Vec D × Fin S.Q)) (hpairs : ∀ q, q ∈ pairs ↔ q ∈ commPairs S fun _ => true)
    {cells : List (Vec D)} (hn : cells.Nodup) (hcells : ∀ x, x ∈ cells ↔ Inner N x)
    (C : ℕ → G → (Fin S.Q → V) → Fin S.Q → V) (s : (Vec D × Fin S.Q → V) × (Vec D × Fin S.Q → V))
    (g : G → Fin S.Q → V) (r₀ : Vec D → Fin S.Q → V) (h0 : readPops (.id _) S p 0 s.1 = some r₀)
    (hg : ∀ x, Inner N x → r₀ x = g (ψ x)) (n : ℕ) :
    ∃ s' r, run (.id _) S p (fun t x => C t (ψ x)) (periodicHook N 1 S p pairs) cells n s = some s' ∧
      readPops (.id _) S p n s'.1 = some r ∧
      ∀ x, Inner N x → r x = Spec.textbook (fun i => ψ (S.c i)) C n g (ψ x) := by
  induction n with
  | zero => exact ⟨s, r₀, rfl, h0, hg⟩
  | succ n ih =>
    obtain ⟨s', r, h1, h2, h3⟩ := ih
    obtain ⟨ts, a, rd, wr, rd', e1, F, hr, hwr, hr'⟩ := runFacts (G := Vec D) (V := V) hs n
    obtain ⟨s1, k1, k2, -⟩ := kernelStep_sem (.id _) F (fun x => C n (ψ x)) hn s'
    obtain ⟨f', ra, rb, w, w', p1, p2, p3, p4, p5, p6, -, -⟩ :=
      C12_periodicity_partial N hN hs hc (fun _ => true) pairs hpairs n s1.1
    refine ⟨(f', s1.2), rb, ?_, p3, ?_⟩
    · simp only [run, h1, e1, F.acc, k1, Option.bind_eq_bind, Option.bind_some]
      rw [p1]; rfl
    · intro x hx
      funext i
      -- the inner cell the torus has at x - c
      let y : Vec D := fun k => (x k - S.c i k - 1) % N k + 1
      have hy : Inner N y := fun k => by
        have := hN k
        have h1 := Int.emod_nonneg (x k - S.c i k - 1) (show (N k : ℤ) ≠ 0 by omega)
        have h2 := Int.emod_lt_of_pos (x k - S.c i k - 1) (show (0 : ℤ) < N k by omega)
        simp only [y]; omega
      have hdvd : ∀ k, (N k : ℤ) ∣ y k - (x - S.c i) k := fun k => by
        simp only [y, Pi.sub_apply]
        refine ⟨-((x k - S.c i k - 1) / N k), ?_⟩
        have := Int.emod_add_mul_ediv (x k - S.c i k - 1) (N k)
        rw [mul_neg]
        omega
      have hψy : ψ y = ψ x - ψ (S.c i) := by
        rw [← map_sub, ← sub_eq_zero, ← map_sub, hψ]
        exact hdvd
      rw [p6 x hx i y hy fun k => Or.inr ⟨rfl, hdvd k⟩]
      rw [hwr] at p4; cases p4
      refine (k2 y ((hcells y).2 hy) i).trans ?_
      rw [hr] at h2; cases h2
      have := h3 y hy
      simp only at this
      rw [this, hψy]; rfl

/-- The hypotheses can be met: a 4×3 domain, the torus `ZMod 4 × ZMod 3`. -/
example : (∀ v : Vec 2, exTorus v = 0 ↔ ∀ k, ((![4, 3] k : ℕ) : ℤ) ∣ v k) ∧ (∀ k, 1 ≤ (![4, 3] : Fin 2 → ℕ) k) ∧
    Supported exStencil "aa" ∧ (∀ i k, exStencil.c i k = -1 ∨ exStencil.c i k = 0 ∨ exStencil.c i k = 1) ∧
    ((![1, 0], ⟨6, by decide⟩) ∈ commPairs exStencil fun _ => true) ∧ exStencil.c ⟨6, by decide⟩ = ![1, 1] := by
  refine ⟨fun v => ?_, by decide, by decide +kernel, by decide +kernel, ?_, by decide +kernel⟩
  · show ((v 0 : ZMod 4), (v 1 : ZMod 3)) = 0 ↔ _
    rw [Prod.mk_eq_zero, Fin.forall_fin_two, ZMod.intCast_zmod_eq_zero_iff_dvd, ZMod.intCast_zmod_eq_zero_iff_dvd]
    rfl
  · decide +kernel

/-- C12 fails with more than one ghost layer: `_get_neighbour_transform` (`communication.py:246-247`) shifts by
`ghost_layers + 1` cells instead of landing on the ghost cell next to the domain. One dimension, three inner cells
`2, 3, 4` of an array of seven, two ghost layers: afterwards the first inner cell reads, from the left, something
else than what the last inner cell sent to the right. -/
theorem C12_two_ghost_layers_wrong :
    ∃ (f f' : Vec 1 × Fin exLine.Q → ℤ) (w r' : Vec 1 → Fin exLine.Q → ℤ),
      periodicHook (fun _ => 3) 2 exLine "pull" (commPairs exLine fun _ => true) 0 f = some f' ∧
      writtenPops (.id _) exLine "pull" 0 f = some w ∧ readPops (.id _) exLine "pull" 1 f' = some r' ∧
      exLine.c 1 = (fun _ => 1) ∧ r' (fun _ => 2) 1 ≠ w (fun _ => 4) 1 := by
  let f : Vec 1 × Fin exLine.Q → ℤ := fun s => s.1 0
  have h : ∃ f', periodicHook (fun _ => 3) 2 exLine "pull" (commPairs exLine fun _ => true) 0 f = some f' ∧
      f' (fun _ => 1, 1) = 1 := by
    have : (periodicHook (fun _ => 3) 2 exLine "pull" (commPairs exLine fun _ => true) 0 f).map
        (fun f' => f' (fun _ => 1, 1)) = some 1 := by decide +kernel
    exact Option.map_eq_some_iff.1 this
  obtain ⟨f', h1, h2⟩ := h
  have e : (stepTimestep "pull" 1) = some .both := rfl
  have e0 : (stepTimestep "pull" 0) = some .both := rfl
  have e2 : getAccessor 1 "pull" .both = some pull := rfl
  have e4 : (pull : Accessor 1).write exLine = some fun i => (0, i) := pull_write exLine
  refine ⟨f, f', fun x i => f (x, i), fun x i => f' (x - exLine.c i, i), h1, ?_, ?_, by decide, ?_⟩
  · simp [writtenPops, e0, e2, e4, loc]
  · simp [readPops, e, e2, pull_read, loc, sub_eq_add_neg]
  · have : ((fun _ => 2 : Vec 1) - exLine.c 1) = fun _ => 1 := by decide
    simp only [this, h2]
    decide

end Lbm
