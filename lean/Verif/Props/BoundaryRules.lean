/-
Property theorems C10, C29, C30, C31, C44: the boundary rules.
-/
import Verif.BoundaryRules
import Verif.Props.Boundary
import Mathlib.Algebra.Order.Field.Basic
import Mathlib.Tactic.FieldSimp
import Mathlib.Tactic.Linarith
import Mathlib.Tactic.LinearCombination

set_option linter.unusedSectionVars false

namespace Lbm

variable {D : ℕ} {G V : Type} [AddCommGroup G] [DecidableEq G]

/-! ### C10: free slip -/

theorem mirror_apply (a : Fin D) (v : Vec D) (i : Fin D) : mirror a v i = if i = a then -v i else v i := by
  unfold mirror
  by_cases h : i = a
  · subst h; simp
  · simp [h]

/-- C10: mirroring is an involution. -/
theorem C10_mirror_involutive (a : Fin D) : Function.Involutive (mirror a) := by
  intro v; funext i
  simp only [mirror_apply]; split_ifs <;> simp

/-- The stencil contains with each velocity its mirror image at the given axis. -/
def Stencil.MirrorClosed (S : Stencil D) (a : Fin D) : Prop := ∀ i, ∃ j, S.c j = mirror a (S.c i)
instance (S : Stencil D) (a : Fin D) : Decidable (S.MirrorClosed a) :=
  inferInstanceAs (Decidable (∀ _, ∃ _, _))

/-- C10: every predefined stencil contains all mirror images. -/
theorem C10_predefined_mirrorClosed :
    ∀ e ∈ Tables.predefined, ∃ D, ∃ S : Stencil D, predefinedStencil e.2.2 = some ⟨D, S⟩ ∧
      ∀ a, S.MirrorClosed a := by
  have key : ∀ e ∈ Tables.predefined, (match predefinedStencil e.2.2 with
      | some ⟨_, S⟩ => decide (∀ a, S.MirrorClosed a)
      | none => false) = true := by decide +kernel
  intro e he
  have := key e he
  split at this
  · rename_i D S h
    exact ⟨D, S, h, by simpa using of_decide_eq_true this⟩
  · simp at this

/-- The normals `FreeSlip` accepts are the positive and negative unit vectors. -/
theorem C10_accepted_normals {n : Vec D} {a : Fin D} :
    freeSlipAxis n = some a ↔ (n a = 1 ∨ n a = -1) ∧ ∀ i, i ≠ a → n i = 0 := by
  unfold freeSlipAxis
  constructor
  · intro h
    split at h
    · rename_i b hb
      split_ifs at h with h1
      cases h
      refine ⟨h1, fun i hi => ?_⟩
      by_contra hne
      have : i ∈ (List.finRange D).filter fun i => n i ≠ 0 := by simp [hne]
      rw [hb] at this
      exact hi (by simpa using this)
    · cases h
  · rintro ⟨h1, h2⟩
    have hf : (List.finRange D).filter (fun i => n i ≠ 0) = [a] := by
      have hnd : ((List.finRange D).filter fun i => n i ≠ 0).Nodup := (List.nodup_finRange D).filter _
      have hmem : ∀ i, i ∈ (List.finRange D).filter (fun i => n i ≠ 0) ↔ i ∈ [a] := by
        intro i
        simp only [List.mem_filter, List.mem_finRange, true_and, List.mem_singleton, decide_eq_true_eq]
        constructor
        · intro h; by_contra hne; exact h (h2 i hne)
        · rintro rfl; rcases h1 with h | h <;> rw [h] <;> decide
      exact List.perm_singleton.1 ((List.perm_ext_iff_of_nodup hnd (by simp)).2 hmem)
    rw [hf]; simp [h1]

theorem inv_table {S : Stencil D} (hv : S.Valid) (hc : S.InvClosed) :
    ∃ inv, collect (Indexing.inverseDirIndex S) = some inv ∧ ∀ i, S.c (inv i) = -S.c i := by
  obtain ⟨inv, hidx, hcinv, -, -⟩ := exists_inv hv hc
  exact ⟨inv, collect_eq_some.2 fun i => hidx i, hcinv⟩

theorem mirror_table {S : Stencil D} (hv : S.Valid) {a : Fin D} (hm : S.MirrorClosed a) :
    ∃ mir, mirrorTable S a = some mir ∧ ∀ i, S.c (mir i) = mirror a (S.c i) := by
  choose mir hmir using hm
  exact ⟨mir, collect_eq_some.2 fun i => (Stencil.index_eq_some hv).2 (hmir i), hmir⟩

/-- C10 (given normal): a straight wall with normal `n = ±e_a` pointing into the fluid. For a link `j` that crosses the
wall, the cell reads next, for the reversed direction, the population that left the tangentially displaced cell with
the mirrored velocity: same tangential, opposite normal velocity component. Everything else is unchanged. -/
theorem C10_given_normal_specular (φ : Vec D →+ G) {S : Stencil D} {p : String} (hs : Supported S p)
    (hc : S.InvClosed) (t : ℕ) {n : Vec D} {a : Fin D} (hn : freeSlipAxis n = some a) (hm : S.MirrorClosed a)
    (fluid : Set G) (links : List (G × Fin S.Q))
    (hl : ∀ l ∈ links, l.1 ∈ fluid ∧ l.1 + φ (S.c l.2) ∉ fluid) (hwall : ∀ l ∈ links, S.c l.2 a = -n a)
    (htan : ∀ l ∈ links, l.1 + φ (Function.update (S.c l.2) a 0) ∈ fluid) (f : G × Fin S.Q → V) :
    ∃ R f' w r r', freeSlipFixed φ S n = some R ∧ boundaryHook φ S p R links t f = some f' ∧
      writtenPops φ S p t f = some w ∧ readPops φ S p (t + 1) f = some r ∧ readPops φ S p (t + 1) f' = some r' ∧
      (∀ y j j' m, (y, j) ∈ links → S.c j' = -S.c j → S.c m = mirror a (S.c j') →
        r' y j' = w (y + φ (Function.update (S.c j) a 0)) m) ∧
      (∀ x i, (∀ j, S.c i = -S.c j → (x, j) ∉ links) → r' x i = r x i) := by
  obtain ⟨inv, hinv, hcinv⟩ := inv_table hs.2.1 hc
  obtain ⟨mir, hmir, hcmir⟩ := mirror_table hs.2.1 hm
  obtain ⟨hn1, hn2⟩ := C10_accepted_normals.1 hn
  have hoff : ∀ l ∈ links, S.c l.2 + n = Function.update (S.c l.2) a 0 := by
    intro l hl'
    funext i
    by_cases hi : i = a
    · subst hi; simp [hwall l hl']
    · simp [hi, hn2 i hi]
  set R : Rule G S.Q V := fun y j fout _ => fout (y + φ (S.c j + n)) (inv (mir j)) with hR
  obtain ⟨f', w, r, r', h1, h2, h3, h4, h5, h6⟩ := boundaryHook_sem φ hs hc t R fluid links hl
    (fun l hl' g g' _ _ hg _ => hg _ (by rw [hoff l hl']; exact htan l hl') _) f
  refine ⟨R, f', w, r, r', by simp [freeSlipFixed, hn, hmir, hinv, hR], h1, h2, h3, h4, ?_, h6⟩
  intro y j j' m hmem hj hm'
  rw [h5 y j j' hmem hj, hR]
  show w _ _ = _
  rw [hoff _ hmem]
  congr 1
  apply hs.2.1
  rw [hcinv, hcmir, hm', hj]
  funext i
  simp only [mirror_apply, Pi.neg_apply]; split_ifs <;> rfl

/-- A horizontal wall below the half plane `y ≥ 0`. -/
def exPlane : Vec 2 →+ ℤ × ℤ := ⟨⟨fun v => (v 0, v 1), rfl⟩, fun _ _ => rfl⟩
def exHalfPlane : Set (ℤ × ℤ) := {x | 0 ≤ x.2}
instance : DecidablePred (· ∈ exHalfPlane) := fun x => inferInstanceAs (Decidable (0 ≤ x.2))
example : freeSlipAxis (![0, 1] : Vec 2) = some 1 ∧ exStencil.MirrorClosed 1 ∧
    ∀ l ∈ [((0, 0), (⟨2, by decide⟩ : Fin exStencil.Q)), ((5, 0), ⟨7, by decide⟩), ((5, 0), ⟨8, by decide⟩)],
      (l.1 ∈ exHalfPlane ∧ l.1 + exPlane (exStencil.c l.2) ∉ exHalfPlane) ∧
      exStencil.c l.2 1 = -(![0, 1] : Vec 2) 1 ∧
      l.1 + exPlane (Function.update (exStencil.c l.2) 1 0) ∈ exHalfPlane := by
  decide +kernel

theorem freeSlipLoop_fold (φ : Vec D →+ G) (boundary : List G) (x : G) (d : Vec D) (axes : List (Fin D))
    (hnd : axes.Nodup) (s : Vec D × Vec D) :
    axes.foldl (fun s i =>
      if x + φ (Pi.single i (d i)) ∈ boundary then (Function.update s.1 i (d i), mirror i s.2) else s) s =
    (fun i => if i ∈ axes ∧ x + φ (Pi.single i (d i)) ∈ boundary then d i else s.1 i,
     fun i => if i ∈ axes ∧ x + φ (Pi.single i (d i)) ∈ boundary then -s.2 i else s.2 i) := by
  induction axes generalizing s with
  | nil => simp
  | cons b axes ih =>
    obtain ⟨hb, hnd'⟩ := List.nodup_cons.1 hnd
    rw [List.foldl_cons, ih hnd']
    apply Prod.ext <;> funext i
    · by_cases hi : i = b
      · subst hi
        by_cases ht : x + φ (Pi.single i (d i)) ∈ boundary <;> simp [ht, hb]
      · by_cases ht : x + φ (Pi.single b (d b)) ∈ boundary <;> simp [ht, hi]
    · by_cases hi : i = b
      · subst hi
        by_cases ht : x + φ (Pi.single i (d i)) ∈ boundary <;> simp [ht, hb, mirror_apply]
      · by_cases ht : x + φ (Pi.single b (d b)) ∈ boundary <;> simp [ht, hi, mirror_apply]

/-- Component `i` of the link `(y, j)` alone already leads to a boundary cell of the link list. -/
def Blocked (φ : Vec D →+ G) (S : Stencil D) (links : List (G × Fin S.Q)) (y : G) (j : Fin S.Q) (i : Fin D) : Prop :=
  ∃ l ∈ links, l.1 + φ (S.c l.2) = y + φ (Pi.single i (S.c j i))

theorem blocked_iff (φ : Vec D →+ G) (S : Stencil D) (links : List (G × Fin S.Q)) (y : G) (j : Fin S.Q) (i : Fin D) :
    y + φ (Pi.single i (S.c j i)) ∈ freeSlipBoundaryCells φ S links ↔ Blocked φ S links y j i := by
  simp [freeSlipBoundaryCells, Blocked]

/-- A stencil closed under mirroring contains every partial sign flip of its velocities. -/
theorem flip_mem {S : Stencil D} (hm : ∀ a, S.MirrorClosed a) (P : Fin D → Prop) [DecidablePred P] (j : Fin S.Q) :
    ∃ m, ∀ i, S.c m i = if P i then -S.c j i else S.c j i := by
  suffices h : ∀ axes : List (Fin D), axes.Nodup →
      ∃ m, ∀ i, S.c m i = if i ∈ axes ∧ P i then -S.c j i else S.c j i by
    obtain ⟨m, h⟩ := h (List.finRange D) (List.nodup_finRange D)
    exact ⟨m, by simpa using h⟩
  intro axes hnd
  induction axes with
  | nil => exact ⟨j, by simp⟩
  | cons b axes ih =>
    obtain ⟨hb, hnd'⟩ := List.nodup_cons.1 hnd
    obtain ⟨m, hm'⟩ := ih hnd'
    by_cases hP : P b
    · obtain ⟨m2, h2⟩ := hm b m
      refine ⟨m2, fun i => ?_⟩
      rw [h2, mirror_apply]
      by_cases hi : i = b
      · subst hi; simp [hm', hb, hP]
      · simp [hi, hm']
    · refine ⟨m, fun i => ?_⟩
      rw [hm']
      by_cases hi : i = b
      · subst hi; simp [hb, hP]
      · simp [hi]

open Classical in
/-- The data computed by the callback. -/
theorem freeSlipData_spec (φ : Vec D →+ G) {S : Stencil D} (hv : S.Valid)
    (hm : ∀ a, S.MirrorClosed a) (links : List (G × Fin S.Q)) (y : G) (j : Fin S.Q) :
    ∃ n m, freeSlipData φ S (freeSlipBoundaryCells φ S links) y j = some (n, m) ∧
      ((∃ i, Blocked φ S links y j i ∧ S.c j i ≠ 0) →
        (∀ i, (S.c j + n) i = if Blocked φ S links y j i then 0 else S.c j i) ∧
        (∀ i, S.c m i = if Blocked φ S links y j i then S.c j i else -S.c j i)) ∧
      ((¬ ∃ i, Blocked φ S links y j i ∧ S.c j i ≠ 0) → S.c j + n = 0 ∧ m = j) := by
  have hloop : freeSlipLoop φ (freeSlipBoundaryCells φ S links) y (S.c j) (List.finRange D) =
      (fun i => if Blocked φ S links y j i then S.c j i else 0,
       fun i => if Blocked φ S links y j i then -S.c j i else S.c j i) := by
    unfold freeSlipLoop
    rw [freeSlipLoop_fold φ _ y (S.c j) _ (List.nodup_finRange D)]
    simp [blocked_iff]
  unfold freeSlipData
  rw [hloop]
  by_cases hz : ∃ i, Blocked φ S links y j i ∧ S.c j i ≠ 0
  · obtain ⟨m, hm'⟩ := flip_mem hm (fun i => ¬ Blocked φ S links y j i) j
    have hidx : S.index (-fun i => if Blocked φ S links y j i then -S.c j i else S.c j i) = some m := by
      rw [Stencil.index_eq_some hv]
      funext i
      rw [hm', Pi.neg_apply]
      by_cases hb : Blocked φ S links y j i <;> simp [hb]
    have hne : ¬ (fun i => if Blocked φ S links y j i then S.c j i else 0) = (0 : Vec D) := by
      obtain ⟨i, h1, h2⟩ := hz
      intro h
      have := congrFun h i
      simp [h1, h2] at this
    refine ⟨-fun i => if Blocked φ S links y j i then S.c j i else 0, m, by rw [if_neg hne]; simp only [hidx, Option.bind_eq_bind, Option.bind_some], ?_, fun h => absurd hz h⟩
    refine fun _ => ⟨fun i => ?_, fun i => ?_⟩
    · rw [Pi.add_apply, Pi.neg_apply]
      by_cases hb : Blocked φ S links y j i <;> simp [hb]
    · rw [hm']
      by_cases hb : Blocked φ S links y j i <;> simp [hb]
  · have h0 : (fun i => if Blocked φ S links y j i then S.c j i else 0) = (0 : Vec D) := by
      funext i
      by_cases hb : Blocked φ S links y j i
      · simp only [hb, if_true, Pi.zero_apply]
        by_contra hne; exact hz ⟨i, hb, hne⟩
      · simp [hb]
    have hidx : S.index (fun i => if Blocked φ S links y j i then -S.c j i else S.c j i) = some j := by
      rw [Stencil.index_eq_some hv]
      funext i
      have := congrFun h0 i
      by_cases hb : Blocked φ S links y j i
      · simp only [hb, if_true, Pi.zero_apply] at this ⊢; rw [this]; rfl
      · simp [hb]
    exact ⟨-S.c j, j, by rw [if_pos h0]; simp only [hidx, Option.bind_eq_bind, Option.bind_some], fun h => absurd h hz,
      fun _ => ⟨by simp, rfl⟩⟩

open Classical in
/-- C10 (automatic normals): for an inverse- and mirror-closed stencil the callback never fails. For a link some
component of which alone leads into the boundary, the blocked components are reflected and the others kept: the cell
reads next, for the reversed direction, the population that left the cell displaced by the free components, with the
velocity whose free components agree with the arriving one and whose blocked components are opposite. At a convex
corner (no blocked component) the rule is bounce back. -/
theorem C10_automatic_normal_specular (φ : Vec D →+ G) {S : Stencil D} {p : String} (hs : Supported S p)
    (hc : S.InvClosed) (hm : ∀ a, S.MirrorClosed a) (t : ℕ) (fluid : Set G) (links : List (G × Fin S.Q))
    (hl : ∀ l ∈ links, l.1 ∈ fluid ∧ l.1 + φ (S.c l.2) ∉ fluid)
    (htan : ∀ y j, (y, j) ∈ links → (∃ i, Blocked φ S links y j i ∧ S.c j i ≠ 0) →
      y + φ (fun i => if Blocked φ S links y j i then 0 else S.c j i) ∈ fluid) (f : G × Fin S.Q → V) :
    ∃ R f' w r r', freeSlipAuto φ S links = some R ∧ boundaryHook φ S p R links t f = some f' ∧
      writtenPops φ S p t f = some w ∧ readPops φ S p (t + 1) f = some r ∧ readPops φ S p (t + 1) f' = some r' ∧
      (∀ y j j' m, (y, j) ∈ links → S.c j' = -S.c j → (∃ i, Blocked φ S links y j i ∧ S.c j i ≠ 0) →
        (∀ i, S.c m i = if Blocked φ S links y j i then -S.c j' i else S.c j' i) →
        r' y j' = w (y + φ (fun i => if Blocked φ S links y j i then 0 else S.c j i)) m) ∧
      (∀ y j j', (y, j) ∈ links → S.c j' = -S.c j → (¬ ∃ i, Blocked φ S links y j i ∧ S.c j i ≠ 0) →
        r' y j' = w y j) ∧
      (∀ x i, (∀ j, S.c i = -S.c j → (x, j) ∉ links) → r' x i = r x i) := by
  have hdata := freeSlipData_spec φ hs.2.1 hm links
  set R : Rule G S.Q V := fun y j fout _ =>
    let e := (freeSlipData φ S (freeSlipBoundaryCells φ S links) y j).getD (0, j)
    fout (y + φ (S.c j + e.1)) e.2 with hR
  have hRs : freeSlipAuto φ S links = some R := by
    unfold freeSlipAuto
    rw [if_pos]
    rw [List.all_eq_true]
    intro l _
    obtain ⟨n, m, h, -⟩ := hdata l.1 l.2
    rw [h]; rfl
  have hval : ∀ y j (g h : G → Fin S.Q → V),
      ((∃ i, Blocked φ S links y j i ∧ S.c j i ≠ 0) → ∀ m,
        (∀ i, S.c m i = if Blocked φ S links y j i then S.c j i else -S.c j i) →
        R y j g h = g (y + φ (fun i => if Blocked φ S links y j i then 0 else S.c j i)) m) ∧
      ((¬ ∃ i, Blocked φ S links y j i ∧ S.c j i ≠ 0) → R y j g h = g y j) := by
    intro y j g h
    obtain ⟨n, m, hd, h1, h2⟩ := hdata y j
    constructor
    · intro hb m' hm'
      obtain ⟨e1, e2⟩ := h1 hb
      rw [hR]
      simp only [hd, Option.getD_some]
      rw [show S.c j + n = _ from funext e1, show m = m' from hs.2.1 (funext fun i => by rw [e2, hm'])]
    · intro hb
      obtain ⟨e1, rfl⟩ := h2 hb
      rw [hR]
      simp only [hd, Option.getD_some]
      rw [e1, map_zero, add_zero]
  obtain ⟨f', w, r, r', h1, h2, h3, h4, h5, h6⟩ := boundaryHook_sem φ hs hc t R fluid links hl
    (by
      rintro ⟨y, j⟩ hl' g g' h h' hg _
      by_cases hb : ∃ i, Blocked φ S links y j i ∧ S.c j i ≠ 0
      · obtain ⟨n, m, hd, h1, -⟩ := hdata y j
        rw [(hval y j g h).1 hb m (h1 hb).2, (hval y j g' h').1 hb m (h1 hb).2]
        exact hg _ (htan y j hl' hb) _
      · show R y j g h = R y j g' h'
        rw [(hval y j g h).2 hb, (hval y j g' h').2 hb]
        exact hg _ (hl _ hl').1 _) f
  refine ⟨R, f', w, r, r', hRs, h1, h2, h3, h4, ?_, ?_, h6⟩
  · intro y j j' m hmem hj hb hm'
    rw [h5 y j j' hmem hj]
    refine (hval y j w r).1 hb m fun i => ?_
    rw [hm', hj, Pi.neg_apply, neg_neg]
  · intro y j j' hmem hj hb
    rw [h5 y j j' hmem hj]
    exact (hval y j w r).2 hb

/-! ### C44: a channel with free-slip walls -/

section channel
variable {K : Type} [CommRing K]

/-- Reindexing for a flat channel whose walls reflect specularly at axis `a`. -/
theorem channel_sum {W : Type} [AddCommMonoid W] (φ : Vec D →+ G) {S : Stencil D} (hv : S.Valid) (a : Fin D)
    {mir : Fin S.Q → Fin S.Q} (hmir : ∀ i, S.c (mir i) = mirror a (S.c i)) (Ω : Finset G)
    (hflat : ∀ x (v : Vec D), v a = 0 → (x + φ v ∈ Ω ↔ x ∈ Ω))
    (r' w : G → Fin S.Q → V) (h : Fin S.Q → V → W)
    (h1 : ∀ x i, x - φ (S.c i) ∈ Ω → r' x i = w (x - φ (S.c i)) i)
    (h2 : ∀ x ∈ Ω, ∀ i, x - φ (S.c i) ∉ Ω → r' x i = w (x - φ (Function.update (S.c i) a 0)) (mir i)) :
    ∑ x ∈ Ω, ∑ i, h i (r' x i) = ∑ y ∈ Ω, ∑ j, h (if y + φ (S.c j) ∈ Ω then j else mir j) (w y j) := by
  have hmir2 : ∀ i, mir (mir i) = i := fun i => hv (by rw [hmir, hmir, C10_mirror_involutive])
  have hupd : ∀ i, Function.update (S.c (mir i)) a 0 = Function.update (S.c i) a 0 := by
    intro i; funext k
    by_cases hk : k = a
    · subst hk; simp
    · simp [hk, hmir, mirror_apply]
  have hsum : ∀ i, S.c (mir i) + S.c i = Function.update (S.c i) a 0 + Function.update (S.c i) a 0 := by
    intro i; funext k
    by_cases hk : k = a
    · subst hk; simp [hmir, mirror_apply]
    · simp [hk, hmir, mirror_apply]
  have ht : ∀ x i, x + φ (Function.update (S.c i) a 0) ∈ Ω ↔ x ∈ Ω := fun x i => hflat x _ (by simp)
  have ht' : ∀ x i, x - φ (Function.update (S.c i) a 0) ∈ Ω ↔ x ∈ Ω := fun x i => by
    rw [← ht (x - _) i, sub_add_cancel]
  have hk1 : ∀ x i, x - φ (Function.update (S.c i) a 0) + φ (S.c (mir i)) ∈ Ω ↔ x - φ (S.c i) ∈ Ω := by
    intro x i
    have : x - φ (Function.update (S.c i) a 0) + φ (S.c (mir i)) =
        x - φ (S.c i) + φ (Function.update (S.c i) a 0) := by
      have := congrArg φ (hsum i)
      simp only [map_add] at this
      rw [eq_sub_of_add_eq this]; abel
    rw [this, ht]
  have hk2 : ∀ x i, x + φ (Function.update (S.c i) a 0) - φ (S.c (mir i)) ∈ Ω ↔ x + φ (S.c i) ∈ Ω := by
    intro x i
    have : x + φ (Function.update (S.c i) a 0) - φ (S.c (mir i)) =
        x + φ (S.c i) - φ (Function.update (S.c i) a 0) := by
      have := congrArg φ (hsum i)
      simp only [map_add] at this
      rw [eq_sub_of_add_eq this]; abel
    rw [this, ht']
  rw [← Finset.sum_product', ← Finset.sum_product']
  refine Finset.sum_bij'
    (fun b _ => if b.1 - φ (S.c b.2) ∈ Ω then (b.1 - φ (S.c b.2), b.2)
      else (b.1 - φ (Function.update (S.c b.2) a 0), mir b.2))
    (fun b _ => if b.1 + φ (S.c b.2) ∈ Ω then (b.1 + φ (S.c b.2), b.2)
      else (b.1 + φ (Function.update (S.c b.2) a 0), mir b.2)) ?_ ?_ ?_ ?_ ?_
  · rintro ⟨x, i⟩ hx
    simp only [Finset.mem_product, Finset.mem_univ, and_true] at hx ⊢
    split_ifs with h
    · exact h
    · exact (ht' x i).2 hx
  · rintro ⟨x, i⟩ hx
    simp only [Finset.mem_product, Finset.mem_univ, and_true] at hx ⊢
    split_ifs with h
    · exact h
    · exact (ht x i).2 hx
  · rintro ⟨x, i⟩ hx
    simp only [Finset.mem_product, Finset.mem_univ, and_true] at hx
    by_cases hm : x - φ (S.c i) ∈ Ω
    · simp [hm, hx]
    · have := (hk1 x i).not.2 hm
      simp [hm, this, hmir2, hupd]
  · rintro ⟨x, i⟩ hx
    simp only [Finset.mem_product, Finset.mem_univ, and_true] at hx
    by_cases hm : x + φ (S.c i) ∈ Ω
    · simp [hm, hx]
    · have := (hk2 x i).not.2 hm
      simp [hm, this, hmir2, hupd]
  · rintro ⟨x, i⟩ hx
    simp only [Finset.mem_product, Finset.mem_univ, and_true] at hx
    by_cases hm : x - φ (S.c i) ∈ Ω
    · simp [hm, hx, h1 x i hm]
    · have := (hk1 x i).not.2 hm
      simp [hm, this, hmir2, h2 x hx i hm]

/-- C44: a domain that is invariant under all shifts orthogonal to axis `a` (a channel, periodic in the other
directions) with free-slip walls whose normals are detected automatically. If the collision operator keeps
`∑ g_i f_i` in each cell and `g` does not depend on the sign of component `a` of the velocity, then the total of
`∑ g_i f_i` stays constant over any number of steps of any streaming pattern. -/
theorem C44_free_slip_channel_invariants (φ : Vec D →+ G) {S : Stencil D} {p : String} (hs : Supported S p)
    (hc : S.InvClosed) (hm : ∀ a, S.MirrorClosed a) (a : Fin D) {cells : List G} (hn : cells.Nodup)
    (hflat : ∀ x (v : Vec D), v a = 0 → (x + φ v ∈ cells ↔ x ∈ cells)) {links : List (G × Fin S.Q)}
    (hl : AllLinks φ S cells links) (g : Fin S.Q → K) (hg : ∀ i j, S.c j = mirror a (S.c i) → g j = g i)
    (C : ℕ → G → (Fin S.Q → K) → Fin S.Q → K) (hC : ∀ t x f, ∑ i, g i * C t x f i = ∑ i, g i * f i)
    (s : (G × Fin S.Q → K) × (G × Fin S.Q → K)) (n : ℕ) :
    ∃ R s' r₀ r, freeSlipAuto φ S links = some R ∧
      run φ S p C (boundaryHook φ S p R links) cells n s = some s' ∧
      readPops φ S p 0 s.1 = some r₀ ∧ readPops φ S p n s'.1 = some r ∧
      ∑ x ∈ cells.toFinset, ∑ i, g i * r x i = ∑ x ∈ cells.toFinset, ∑ i, g i * r₀ x i := by
  classical
  have hlk : ∀ l ∈ links, l.1 ∈ {x | x ∈ cells} ∧ l.1 + φ (S.c l.2) ∉ {x | x ∈ cells} :=
    fun l hl' => (hl.mem l.1 l.2).1 hl'
  have hdec : ∀ j, S.c j = Function.update (S.c j) a 0 + Pi.single a (S.c j a) := by
    intro j; funext k
    by_cases hk : k = a
    · subst hk; simp
    · simp [hk]
  have hblk : ∀ y j, (y, j) ∈ links → ∀ i, Blocked φ S links y j i ↔ i = a := by
    intro y j hy i
    obtain ⟨hy1, hy2⟩ := (hl.mem y j).1 hy
    constructor
    · rintro ⟨l, hl1, hl2⟩
      by_contra hne
      apply (hlk l hl1).2
      show _ ∈ cells
      rw [hl2]
      exact (hflat y _ (by simp [Ne.symm hne])).2 hy1
    · rintro rfl
      refine ⟨(y - φ (Function.update (S.c j) i 0), j), (hl.mem _ _).2 ⟨?_, ?_⟩, ?_⟩
      · rw [sub_eq_add_neg, ← map_neg]
        exact (hflat y _ (by simp)).2 hy1
      · intro h
        apply hy2
        rw [← hflat _ (-Function.update (S.c j) i 0) (by simp)]
        convert h using 1
        rw [map_neg]; abel
      · show y - _ + φ (S.c j) = _
        have := congrArg φ (hdec j)
        rw [map_add] at this
        rw [this]; abel
  have hne : ∀ y j, (y, j) ∈ links → ∃ i, Blocked φ S links y j i ∧ S.c j i ≠ 0 := by
    intro y j hy
    refine ⟨a, (hblk y j hy a).2 rfl, fun h0 => ?_⟩
    obtain ⟨hy1, hy2⟩ := (hl.mem y j).1 hy
    exact hy2 ((hflat y _ h0).2 hy1)
  have htan0 : ∀ y j, (y, j) ∈ links →
      (fun i => if Blocked φ S links y j i then 0 else S.c j i) = Function.update (S.c j) a 0 := by
    intro y j hy; funext i
    by_cases hi : i = a
    · subst hi; simp [(hblk y j hy i).2 rfl]
    · simp [hi, (hblk y j hy i).not.2 hi]
  have htan : ∀ y j, (y, j) ∈ links → (∃ i, Blocked φ S links y j i ∧ S.c j i ≠ 0) →
      y + φ (fun i => if Blocked φ S links y j i then 0 else S.c j i) ∈ {x | x ∈ cells} := by
    intro y j hy _
    rw [htan0 y j hy]
    exact (hflat y _ (by simp)).2 ((hl.mem y j).1 hy).1
  obtain ⟨inv, -, hcinv⟩ := inv_table hs.2.1 hc
  obtain ⟨mir, -, hcmir⟩ := mirror_table hs.2.1 (hm a)
  obtain ⟨R, -, -, -, -, hR, -⟩ := C10_automatic_normal_specular (V := K) φ hs hc hm 0 _ links hlk htan s.1
  refine ⟨R, ?_⟩
  suffices h : ∃ s' r₀ r, run φ S p C (boundaryHook φ S p R links) cells n s = some s' ∧
      readPops φ S p 0 s.1 = some r₀ ∧ readPops φ S p n s'.1 = some r ∧
      ∑ x ∈ cells.toFinset, ∑ i, g i * r x i = ∑ x ∈ cells.toFinset, ∑ i, g i * r₀ x i by
    obtain ⟨s', r₀, r, h⟩ := h
    exact ⟨s', r₀, r, hR, h⟩
  induction n with
  | zero =>
    obtain ⟨_, _, _, _, _, _, _, hr, _, _⟩ := runFacts (G := G) (V := K) hs 0
    exact ⟨s, _, _, rfl, hr _ _, hr _ _, rfl⟩
  | succ n ih =>
    obtain ⟨s', r₀, r, h1, h2, h3, h4⟩ := ih
    obtain ⟨ts, acc, rd, wr, rd', e1, F, hr, hw, hr'⟩ := runFacts (G := G) (V := K) hs n
    obtain ⟨s'', hs'', hmem, -⟩ := kernelStep_sem φ F (C n) hn s'
    obtain ⟨R', f', w, r1, r', q0, q1, q2, q3, q4, q5, -, q7⟩ :=
      C10_automatic_normal_specular (V := K) φ hs hc hm n _ links hlk htan s''.1
    rw [hR] at q0; cases q0
    rw [hw] at q2; cases q2
    rw [hr'] at q3; cases q3
    rw [hr] at h3; cases h3
    refine ⟨(f', s''.2), r₀, r', by simp [run, h1, e1, F.acc, hs'', q1], h2, q4, ?_⟩
    have hstream : ∀ x i, x - φ (S.c i) ∈ cells →
        r' x i = s''.1 (loc φ (x - φ (S.c i)) (wr i)) := by
      intro x i hx
      rw [q7 x i]
      · show s''.1 (loc φ x (rd' i)) = _
        rw [loc_wr φ F, sub_add_cancel]
      · intro j hj hmem'
        apply ((hl.mem x j).1 hmem').2
        have : S.c j = -S.c i := by rw [hj, neg_neg]
        rw [this, map_neg, ← sub_eq_add_neg]; exact hx
    have hrefl : ∀ x ∈ cells, ∀ i, x - φ (S.c i) ∉ cells →
        r' x i = s''.1 (loc φ (x - φ (Function.update (S.c i) a 0)) (wr (mir i))) := by
      intro x hx i hi
      have hlink : (x, inv i) ∈ links := by
        rw [hl.mem, hcinv, map_neg, ← sub_eq_add_neg]; exact ⟨hx, hi⟩
      rw [q5 x (inv i) i (mir i) hlink (by rw [hcinv, neg_neg]) (hne _ _ hlink)]
      · show s''.1 (loc φ (x + φ _) _) = _
        have hu : Function.update (-S.c i) a 0 = -Function.update (S.c i) a 0 := by
          funext k
          by_cases hk : k = a
          · subst hk; simp
          · simp [hk]
        rw [htan0 _ _ hlink, hcinv, hu, map_neg, ← sub_eq_add_neg]
      · intro k
        rw [hcmir, mirror_apply]
        by_cases hk : k = a
        · simp [hk, (hblk _ _ hlink a).2 rfl]
        · simp [hk, (hblk _ _ hlink k).not.2 hk]
    rw [← h4, channel_sum φ hs.2.1 a hcmir cells.toFinset (by simpa using hflat) r'
      (fun x i => s''.1 (loc φ x (wr i))) (fun i v => g i * v) (by simpa using hstream)
      (by simpa using hrefl)]
    refine Finset.sum_congr rfl fun x hx => ?_
    rw [← hC n x]
    refine Finset.sum_congr rfl fun i _ => ?_
    rw [← hmem x (by simpa using hx) i]
    split_ifs
    · rfl
    · rw [hg i (mir i) (hcmir i)]

/-- C44: mass and the tangential momentum components are such invariants. -/
theorem C44_mass_and_tangential_momentum (S : Stencil D) (a k : Fin D) (hk : k ≠ a) :
    (∀ i j, S.c j = mirror a (S.c i) → ((1 : Fin S.Q → K) j = (1 : Fin S.Q → K) i)) ∧
    (∀ i j, S.c j = mirror a (S.c i) → ((S.c j k : K) = (S.c i k : K))) := by
  refine ⟨fun _ _ _ => rfl, fun i j h => ?_⟩
  rw [h, mirror_apply, if_neg hk]

/-- A channel on the 4 × 5 torus, two layers thick, walls orthogonal to axis 1. -/
def exChannel : List (ZMod 4 × ZMod 5) := [(0, 1), (1, 1), (2, 1), (3, 1), (0, 2), (1, 2), (2, 2), (3, 2)]
def exTorus45 : Vec 2 →+ ZMod 4 × ZMod 5 :=
  ⟨⟨fun v => (v 0, v 1), by simp⟩, fun _ _ => by simp⟩
example : exChannel.Nodup ∧ (∀ x (v : Vec 2), v 1 = 0 → (x + exTorus45 v ∈ exChannel ↔ x ∈ exChannel)) ∧
    (∀ a, exStencil.MirrorClosed a) ∧ exStencil.InvClosed := by
  refine ⟨by decide, ?_, by decide +kernel, by decide +kernel⟩
  have : ∀ (x : ZMod 4 × ZMod 5) (u : ZMod 4), x + (u, 0) ∈ exChannel ↔ x ∈ exChannel := by decide +kernel
  intro x v hv
  have e : exTorus45 v = ((v 0 : ZMod 4), 0) := by simp [exTorus45, hv]
  rw [e]; exact this x _

end channel

end Lbm
